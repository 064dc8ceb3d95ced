import Verif.DepGraph.Replace
/-!
# What protected resources require
-/
namespace Pulumi.DepGraph
open Pulumi.Snapshot (State Provider Ref Env Intact Backed Provides)

/-- The state the search takes for the URN. -/
def Node (rs : List State) (u : String) (s : State) : Prop := ∃ i, nodeOf rs u = some i ∧ rs[i]? = some s

theorem nodeOf_once {rs : List State} (ho : Once rs) {u : String} {i : Nat} :
    nodeOf rs u = some i ↔ ∃ s, rs[i]? = some s ∧ s.urn = u := by
  have hp : ∀ k : Nat, decide ((rs[k]?).map (·.urn) = some u) = true ↔ ∃ s, rs[k]? = some s ∧ s.urn = u := by
    intro k; rw [decide_eq_true_eq, Option.map_eq_some_iff]
  unfold nodeOf
  constructor
  · intro h
    have := List.find?_some h
    exact (hp i).1 this
  · intro h
    cases hf : (List.range rs.length).reverse.find? (fun i => decide ((rs[i]?).map (·.urn) = some u)) with
    | none =>
      rw [List.find?_eq_none] at hf
      refine absurd ((hp i).2 h) (hf i ?_)
      obtain ⟨s, hs, _⟩ := h
      rw [List.mem_reverse, List.mem_range]
      exact (List.getElem?_eq_some_iff.1 hs).1
    | some k =>
      have hk := List.find?_some hf
      obtain ⟨s, hs, e⟩ := (hp k).1 hk
      obtain ⟨s', hs', e'⟩ := h
      rw [once_inj ho hs hs' (by rw [e, e'])]

theorem node_once {rs : List State} (ho : Once rs) {u : String} {s : State} : Node rs u s ↔ s ∈ rs ∧ s.urn = u := by
  unfold Node
  constructor
  · rintro ⟨i, h1, h2⟩
    obtain ⟨s', h3, e⟩ := (nodeOf_once ho).1 h1
    rw [h2] at h3; cases h3
    exact ⟨List.mem_of_getElem? h2, e⟩
  · rintro ⟨hm, e⟩
    obtain ⟨i, hi, rfl⟩ := List.getElem_of_mem hm
    exact ⟨i, (nodeOf_once ho).2 ⟨_, List.getElem?_eq_getElem hi, e⟩, List.getElem?_eq_getElem hi⟩

/-- Everything the state leads to is marked, and its provider is noted. -/
def Followed (rs : List State) (m : Marks) (s : State) : Prop :=
  (∀ d ∈ s.deps, d ∈ m.marked) ∧ ((nodeOf rs s.parent).isSome = true → s.parent ∈ m.marked) ∧
  ∀ r, s.provider = .ref r → r.urn ∈ m.providers

/-- Every mark has been followed, but for those in the making. -/
def Good (rs : List State) (m : Marks) (open' : List String) : Prop :=
  ∀ u ∈ m.marked, u ∉ open' → ∃ s, Node rs u s ∧ Followed rs m s

structure Grows (m m' : Marks) : Prop where
  marked : ∀ u ∈ m.marked, u ∈ m'.marked
  providers : ∀ u ∈ m.providers, u ∈ m'.providers

theorem Grows.trans {a b c} (h1 : Grows a b) (h2 : Grows b c) : Grows a c :=
  ⟨fun u hu => h2.1 u (h1.1 u hu), fun u hu => h2.2 u (h1.2 u hu)⟩

theorem Followed.grows {rs m m' s} (h : Followed rs m s) (hg : Grows m m') : Followed rs m' s :=
  ⟨fun d hd => hg.1 d (h.1 d hd), fun hp => hg.1 _ (h.2.1 hp), fun r hr => hg.2 _ (h.2.2 r hr)⟩

theorem mark_good (rs : List State) : ∀ fuel,
    (∀ u m m' G, mark rs fuel u m = some m' → Good rs m G → Grows m m' ∧ u ∈ m'.marked ∧ Good rs m' G) ∧
    (∀ u s m m' G, markRest rs fuel s m = some m' → Node rs u s → u ∈ m.marked →
      (∀ r, s.provider = .ref r → r.urn ∈ m.providers) → Good rs m (u :: G) → Grows m m' ∧ Good rs m' G) ∧
    (∀ ds m m' G, markAll rs fuel ds m = some m' → Good rs m G →
      Grows m m' ∧ (∀ d ∈ ds, d ∈ m'.marked) ∧ Good rs m' G) := by
  intro fuel
  induction fuel with
  | zero =>
    refine ⟨?_, ?_, ?_⟩
    · intro u m m' G h; unfold mark at h; cases h
    · intro u s m m' G h; unfold markRest at h; cases h
    · intro ds m m' G h; unfold markAll at h; cases h
  | succ fuel ih =>
    obtain ⟨ih1, ih2, ih3⟩ := ih
    refine ⟨?_, ?_, ?_⟩
    · intro u m m' G h hg
      unfold mark at h
      cases hn : nodeOf rs u with
      | none => rw [hn] at h; cases h
      | some i =>
        rw [hn] at h; simp only at h
        cases hs : rs[i]? with
        | none => rw [hs] at h; cases h
        | some s =>
          rw [hs] at h; simp only at h
          have hnode : Node rs u s := ⟨i, hn, hs⟩
          have key : ∀ ps, (∀ p ∈ m.providers, p ∈ ps) → (∀ r, s.provider = .ref r → r.urn ∈ ps) →
              markRest rs fuel s ⟨u :: m.marked, ps⟩ = some m' → Grows m m' ∧ u ∈ m'.marked ∧ Good rs m' G := by
            intro ps hps hr hm
            have hgr : Grows m ⟨u :: m.marked, ps⟩ := ⟨fun x hx => List.mem_cons_of_mem _ hx, hps⟩
            have := ih2 u s _ m' G hm hnode List.mem_cons_self hr (by
              intro x hx hxG
              rw [List.mem_cons, not_or] at hxG
              rcases List.mem_cons.1 hx with rfl | hx
              · exact absurd rfl hxG.1
              · obtain ⟨t, ht, hf⟩ := hg x hx hxG.2
                exact ⟨t, ht, hf.grows hgr⟩)
            exact ⟨hgr.trans this.1, this.1.1 u List.mem_cons_self, this.2⟩
          cases hp : s.provider with
          | malformed x => rw [hp] at h; cases h
          | none =>
            rw [hp] at h
            exact key m.providers (fun _ => id) (fun r hr => by rw [hp] at hr; cases hr) h
          | ref r =>
            rw [hp] at h
            exact key (r.urn :: m.providers) (fun _ hx => List.mem_cons_of_mem _ hx)
              (fun r' hr => by rw [hp] at hr; cases hr; exact List.mem_cons_self) h
    · intro u s m m' G h hnode hu hr hg
      unfold markRest at h
      cases ha : markAll rs fuel s.deps m with
      | none => rw [ha] at h; cases h
      | some m1 =>
        rw [ha] at h; simp only at h
        obtain ⟨hg1, hd, hgood1⟩ := ih3 s.deps m m1 (u :: G) ha hg
        have close : ∀ m2, Grows m1 m2 → Good rs m2 (u :: G) →
            ((nodeOf rs s.parent).isSome = true → s.parent ∈ m2.marked) → Good rs m2 G := by
          intro m2 hg2 hgood2 hpar x hx hxG
          by_cases hxu : x = u
          · subst hxu
            exact ⟨s, hnode, fun d hd' => hg2.1 d (hd d hd'), hpar, fun r hr' => hg2.2 _ (hg1.2 _ (hr r hr'))⟩
          · exact hgood2 x hx (by simp [hxu, hxG])
        by_cases hc : ((nodeOf rs s.parent).isSome && !decide (s.parent ∈ m1.marked)) = true
        · rw [if_pos hc] at h
          obtain ⟨hg2, hp, hgood2⟩ := ih1 s.parent m1 m' (u :: G) h hgood1
          exact ⟨hg1.trans hg2, close m' hg2 hgood2 (fun _ => hp)⟩
        · rw [if_neg hc] at h
          cases h
          refine ⟨hg1, close m' ⟨fun _ => id, fun _ => id⟩ hgood1 (fun hsome => ?_)⟩
          simp only [hsome, Bool.true_and, Bool.not_eq_true, Bool.not_eq_false', decide_eq_true_eq] at hc
          exact hc
    · intro ds m m' G h hg
      cases ds with
      | nil =>
        unfold markAll at h
        cases h
        exact ⟨⟨fun _ => id, fun _ => id⟩, by simp, hg⟩
      | cons d ds =>
        unfold markAll at h
        cases hm : mark rs fuel d m with
        | none => rw [hm] at h; cases h
        | some m1 =>
          rw [hm] at h; simp only at h
          obtain ⟨hg1, hd, hgood1⟩ := ih1 d m m1 G hm hg
          obtain ⟨hg2, hds, hgood2⟩ := ih3 ds m1 m' G h hgood1
          refine ⟨hg1.trans hg2, fun x hx => ?_, hgood2⟩
          rcases List.mem_cons.1 hx with rfl | hx
          · exact hg2.1 _ hd
          · exact hds x hx

/-- Marks stay within a predicate that is closed under what is followed. -/
structure Within (R P : String → Prop) (m : Marks) : Prop where
  marked : ∀ u ∈ m.marked, R u
  providers : ∀ u ∈ m.providers, P u

structure ClosedUnder (rs : List State) (R P : String → Prop) : Prop where
  deps : ∀ u s, R u → Node rs u s → ∀ d ∈ s.deps, R d
  parent : ∀ u s, R u → Node rs u s → (nodeOf rs s.parent).isSome = true → R s.parent
  provider : ∀ u s r, R u → Node rs u s → s.provider = .ref r → P r.urn

theorem mark_within (rs : List State) {R P : String → Prop} (hc : ClosedUnder rs R P) : ∀ fuel,
    (∀ u m m', mark rs fuel u m = some m' → R u → Within R P m → Within R P m') ∧
    (∀ u s m m', markRest rs fuel s m = some m' → Node rs u s → R u → Within R P m → Within R P m') ∧
    (∀ ds m m', markAll rs fuel ds m = some m' → (∀ d ∈ ds, R d) → Within R P m → Within R P m') := by
  intro fuel
  induction fuel with
  | zero =>
    refine ⟨?_, ?_, ?_⟩
    · intro u m m' h; unfold mark at h; cases h
    · intro u s m m' h; unfold markRest at h; cases h
    · intro ds m m' h; unfold markAll at h; cases h
  | succ fuel ih =>
    obtain ⟨ih1, ih2, ih3⟩ := ih
    refine ⟨?_, ?_, ?_⟩
    · intro u m m' h hu hw
      unfold mark at h
      cases hn : nodeOf rs u with
      | none => rw [hn] at h; cases h
      | some i =>
        rw [hn] at h; simp only at h
        cases hs : rs[i]? with
        | none => rw [hs] at h; cases h
        | some s =>
          rw [hs] at h; simp only at h
          have hnode : Node rs u s := ⟨i, hn, hs⟩
          cases hp : s.provider with
          | malformed x => rw [hp] at h; cases h
          | none =>
            rw [hp] at h
            refine ih2 u s _ m' h hnode hu ⟨fun x hx => ?_, hw.2⟩
            rcases List.mem_cons.1 hx with rfl | hx
            · exact hu
            · exact hw.1 x hx
          | ref r =>
            rw [hp] at h
            refine ih2 u s _ m' h hnode hu ⟨fun x hx => ?_, fun x hx => ?_⟩
            · rcases List.mem_cons.1 hx with rfl | hx
              · exact hu
              · exact hw.1 x hx
            · rcases List.mem_cons.1 hx with rfl | hx
              · exact hc.provider u s r hu hnode hp
              · exact hw.2 x hx
    · intro u s m m' h hnode hu hw
      unfold markRest at h
      cases ha : markAll rs fuel s.deps m with
      | none => rw [ha] at h; cases h
      | some m1 =>
        rw [ha] at h; simp only at h
        have hw1 := ih3 s.deps m m1 ha (fun d hd => hc.deps u s hu hnode d hd) hw
        by_cases hcd : ((nodeOf rs s.parent).isSome && !decide (s.parent ∈ m1.marked)) = true
        · rw [if_pos hcd] at h
          rw [Bool.and_eq_true] at hcd
          exact ih1 _ m1 m' h (hc.parent u s hu hnode hcd.1) hw1
        · rw [if_neg hcd] at h
          cases h; exact hw1
    · intro ds m m' h hR hw
      cases ds with
      | nil => unfold markAll at h; cases h; exact hw
      | cons d ds =>
        unfold markAll at h
        cases hm : mark rs fuel d m with
        | none => rw [hm] at h; cases h
        | some m1 =>
          rw [hm] at h; simp only at h
          exact ih3 ds m1 m' h (fun x hx => hR x (by simp [hx])) (ih1 d m m1 hm (hR d (by simp)) hw)

theorem markAll_some {rs : List State} {N : Nat} : ∀ (ds : List String),
    (∀ d ∈ ds, ∀ fuel, N ≤ fuel → ∀ m, ∃ m', mark rs fuel d m = some m') →
    ∀ fuel, N + ds.length + 1 ≤ fuel → ∀ m, ∃ m', markAll rs fuel ds m = some m' := by
  intro ds
  induction ds with
  | nil =>
    intro _ fuel hf m
    cases fuel with
    | zero => omega
    | succ fuel => exact ⟨m, by unfold markAll; rfl⟩
  | cons d ds ih =>
    intro h fuel hf m
    simp only [List.length_cons] at hf
    cases fuel with
    | zero => omega
    | succ fuel =>
      obtain ⟨m1, h1⟩ := h d (by simp) fuel (by omega) m
      obtain ⟨m2, h2⟩ := ih (fun x hx => h x (by simp [hx])) fuel (by omega) m1
      exact ⟨m2, by unfold markAll; rw [h1]; exact h2⟩

theorem mark_some {E} {rs : List State} (h : Intact E rs) (ho : Once rs)
    (hn : ∀ s ∈ rs, s.urn ≠ "") : ∀ p : Nat, ∃ N, ∀ fuel, N ≤ fuel →
    ∀ (q : Nat) (s : State), q < p → rs[q]? = some s → ∀ m, ∃ m', mark rs fuel s.urn m = some m' := by
  intro p
  induction p with
  | zero => exact ⟨0, fun _ _ q _ hq => by omega⟩
  | succ p ih =>
    obtain ⟨N, hN⟩ := ih
    cases hs : rs[p]? with
    | none =>
      refine ⟨N, fun fuel hf q s hq hqs => ?_⟩
      by_cases hqp : q < p
      · exact hN fuel hf q s hqp hqs
      · have : q = p := by omega
        subst this; rw [hs] at hqs; cases hqs
    | some s =>
      refine ⟨N + s.deps.length + 5, fun fuel hf q s' hq hqs m => ?_⟩
      by_cases hqp : q < p
      · exact hN fuel (by omega) q s' hqp hqs m
      have : q = p := by omega
      subst this
      rw [hs] at hqs; cases hqs
      have hb := backed_at h hs
      have hdeps : ∀ d ∈ s.deps, ∀ fuel, N ≤ fuel → ∀ m, ∃ m', mark rs fuel d m = some m' := by
        intro d hd fuel hf m
        obtain ⟨x, hx, e⟩ := hb.deps d hd
        obtain ⟨c, hc, hcx⟩ := take_mem hx
        rw [← e]
        exact hN fuel hf c x hc hcx m
      obtain ⟨f, rfl⟩ : ∃ f, fuel = f + 3 := ⟨fuel - 3, by omega⟩
      have hrest : ∀ m, ∃ m', markRest rs (f + 2) s m = some m' := by
        intro m
        obtain ⟨m1, h1⟩ := markAll_some s.deps hdeps (f + 1) (by omega) m
        unfold markRest
        rw [h1]; simp only
        by_cases hcd : ((nodeOf rs s.parent).isSome && !decide (s.parent ∈ m1.marked)) = true
        · rw [if_pos hcd]
          rw [Bool.and_eq_true] at hcd
          obtain ⟨i, hi⟩ := Option.isSome_iff_exists.1 hcd.1
          obtain ⟨x, hx, e⟩ := (nodeOf_once ho).1 hi
          rcases hb.parent with hp | ⟨y, hy, e'⟩
          · exact absurd (e.trans hp) (hn x (List.mem_of_getElem? hx))
          · obtain ⟨c, hc, hcy⟩ := take_mem hy
            rw [← e']
            exact hN (f + 1) (by omega) c y hc hcy m1
        · rw [if_neg hcd]; exact ⟨m1, rfl⟩
      have hnode : nodeOf rs s.urn = some q := (nodeOf_once ho).2 ⟨s, hs, rfl⟩
      unfold mark
      rw [hnode]; simp only; rw [hs]; simp only
      cases hp : s.provider with
      | malformed x => exact absurd hp (intact_parsed h s (List.mem_of_getElem? hs) x)
      | none => exact hrest _
      | ref r => exact hrest _

theorem markProviders_good {rs : List State} {fuel : Nat} : ∀ (order : List String) (m m' : Marks),
    markProviders rs fuel order m = some m' → Good rs m [] →
    Grows m m' ∧ Good rs m' [] ∧ ∀ u ∈ order, u ∈ m.providers → u ∈ m'.marked := by
  intro order
  induction order with
  | nil => intro m m' h hg; cases h; exact ⟨⟨fun _ => id, fun _ => id⟩, hg, by simp⟩
  | cons u us ih =>
    intro m m' h hg
    unfold markProviders at h
    by_cases hu : u ∈ m.providers
    · rw [if_pos hu] at h
      cases hm : mark rs fuel u m with
      | none => rw [hm] at h; cases h
      | some m1 =>
        rw [hm] at h; simp only at h
        obtain ⟨g1, hum, hg1⟩ := (mark_good rs fuel).1 u m m1 [] hm hg
        obtain ⟨g2, hg2, hall⟩ := ih m1 m' h hg1
        refine ⟨g1.trans g2, hg2, fun x hx hxp => ?_⟩
        rcases List.mem_cons.1 hx with rfl | hx
        · exact g2.1 _ hum
        · exact hall x hx (g1.2 x hxp)
    · rw [if_neg hu] at h
      obtain ⟨g2, hg2, hall⟩ := ih m m' h hg
      refine ⟨g2, hg2, fun x hx hxp => ?_⟩
      rcases List.mem_cons.1 hx with rfl | hx
      · exact absurd hxp hu
      · exact hall x hx hxp

theorem markProviders_within {rs : List State} {fuel : Nat} {R : String → Prop} (hc : ClosedUnder rs R R) :
    ∀ (order : List String) (m m' : Marks), markProviders rs fuel order m = some m' → Within R R m → Within R R m' := by
  intro order
  induction order with
  | nil => intro m m' h hg; cases h; exact hg
  | cons u us ih =>
    intro m m' h hw
    unfold markProviders at h
    by_cases hu : u ∈ m.providers
    · rw [if_pos hu] at h
      cases hm : mark rs fuel u m with
      | none => rw [hm] at h; cases h
      | some m1 =>
        rw [hm] at h; simp only at h
        exact ih m1 m' h ((mark_within rs hc fuel).1 u m m1 hm (hw.2 u hu) hw)
    · rw [if_neg hu] at h; exact ih m m' h hw

theorem markProviders_some {rs : List State} {fuel : Nat} : ∀ (order : List String) (m : Marks),
    (∀ u ∈ order, ∀ m, ∃ m', mark rs fuel u m = some m') → ∃ m', markProviders rs fuel order m = some m' := by
  intro order
  induction order with
  | nil => intro m _; exact ⟨m, rfl⟩
  | cons u us ih =>
    intro m h
    unfold markProviders
    by_cases hu : u ∈ m.providers
    · rw [if_pos hu]
      obtain ⟨m1, h1⟩ := h u (by simp) m
      rw [h1]
      exact ih m1 (fun x hx => h x (by simp [hx]))
    · rw [if_neg hu]; exact ih m (fun x hx => h x (by simp [hx]))

theorem requires_trans {rs : List State} {a b c : Nat} (h : Requires rs a b) (h2 : Requires rs b c) : Requires rs a c := by
  induction h with
  | refl _ => exact h2
  | step h1 h2' h3 _ ih => exact .step h1 h2' h3 (ih h2)

theorem standsOn_requires {rs : List State} {a b : Nat} (h : StandsOn rs a b) : Requires rs a b := by
  induction h with
  | refl h => exact .refl h
  | step h1 h2 h3 _ ih =>
    refine .step h1 h2 ?_ ih
    rcases h3 with h3 | h3
    · exact .inl (.inl h3)
    · exact .inr h3

theorem requires_end {rs : List State} {a b : Nat} (h : Requires rs a b) : ∃ t, rs[b]? = some t := by
  induction h with
  | refl h => exact ⟨_, h⟩
  | step _ _ _ _ ih => exact ih

theorem standsOn_marked {rs : List State} (ho : Once rs) {m : Marks} (hg : Good rs m []) {a b : Nat} (h : StandsOn rs a b) :
    (∃ s, rs[a]? = some s ∧ s.urn ∈ m.marked) → ∃ t, rs[b]? = some t ∧ t.urn ∈ m.marked := by
  induction h with
  | refl _ => exact id
  | @step a b c s t h1 h2 h3 _ ih =>
    rintro ⟨s', hs', hm⟩
    rw [h1] at hs'; cases hs'
    obtain ⟨x, hx, hd, hp, _⟩ := hg _ hm (by simp)
    have : x = s := by
      obtain ⟨i, hi, hxi⟩ := hx
      obtain ⟨y, hy, e⟩ := (nodeOf_once ho).1 hi
      rw [hxi] at hy; cases hy
      have := once_inj ho hxi h1 e
      subst this
      rw [hxi] at h1; cases h1; rfl
    subst this
    refine ih ⟨t, h2, ?_⟩
    rcases h3 with h3 | h3
    · exact hd _ h3
    · rw [h3]
      exact hp (Option.isSome_iff_exists.2 ⟨b, (nodeOf_once ho).2 ⟨t, h2, h3⟩⟩)

/-- The provider of a marked resource is noted. -/
theorem provider_noted {rs : List State} (ho : Once rs) {m : Marks} (hg : Good rs m []) {a p : Nat} (h : ProviderOf rs a p) :
    (∃ s, rs[a]? = some s ∧ s.urn ∈ m.marked) → ∃ t, rs[p]? = some t ∧ t.urn ∈ m.providers := by
  obtain ⟨s, t, r, h1, h2, h3, h4⟩ := h
  rintro ⟨s', hs', hm⟩
  rw [h1] at hs'; cases hs'
  obtain ⟨x, hx, _, _, hr⟩ := hg _ hm (by simp)
  obtain ⟨hxm, e⟩ := (node_once ho).1 hx
  obtain ⟨i, hi, rfl⟩ := List.getElem_of_mem hxm
  have := once_inj ho (List.getElem?_eq_getElem hi) h1 e
  subst this
  rw [List.getElem?_eq_getElem hi] at h1; cases h1
  exact ⟨t, h2, h4 ▸ hr r h3⟩

theorem requires_closed {E} {rs : List State} (h : Intact E rs) (ho : Once rs) (i : Nat) :
    let R : String → Prop := fun u => ∃ k t, Requires rs i k ∧ rs[k]? = some t ∧ t.urn = u
    ClosedUnder rs R R := by
  have back : ∀ (u : String) (s : State), (∃ k t, Requires rs i k ∧ rs[k]? = some t ∧ t.urn = u) → Node rs u s →
      ∃ k, Requires rs i k ∧ rs[k]? = some s := by
    rintro u s ⟨k, t, hr, hk, e⟩ ⟨j, hj, hjs⟩
    obtain ⟨x, hx, e'⟩ := (nodeOf_once ho).1 hj
    rw [hjs] at hx; cases hx
    have := once_inj ho hjs hk (by rw [e, e'])
    subst this
    exact ⟨j, hr, hjs⟩
  refine ⟨?_, ?_, ?_⟩
  · intro u s hu hn d hd
    obtain ⟨k, hr, hk⟩ := back u s hu hn
    obtain ⟨x, hx, e⟩ := (backed_at h hk).deps d hd
    obtain ⟨c, _, hcx⟩ := take_mem hx
    exact ⟨c, x, requires_trans hr (.step hk hcx (.inl (.inl (e ▸ hd))) (.refl hcx)), hcx, e⟩
  · intro u s hu hn hp
    obtain ⟨k, hr, hk⟩ := back u s hu hn
    obtain ⟨c, hc⟩ := Option.isSome_iff_exists.1 hp
    obtain ⟨x, hx, e⟩ := (nodeOf_once ho).1 hc
    exact ⟨c, x, requires_trans hr (.step hk hx (.inr e) (.refl hx)), hx, e⟩
  · intro u s r hu hn hp
    obtain ⟨k, hr, hk⟩ := back u s hu hn
    rcases (backed_at h hk).provider with h0 | ⟨r', hr', x, hx, hpx⟩
    · rw [hp] at h0; cases h0
    · rw [hp] at hr'; cases hr'
      have hxm : ∃ c : Nat, rs[c]? = some x := by
        rcases List.mem_append.1 hx with hx | hx
        · obtain ⟨c, _, hcx⟩ := take_mem hx; exact ⟨c, hcx⟩
        · rw [List.mem_singleton] at hx; exact ⟨k, hx ▸ hk⟩
      obtain ⟨c, hcx⟩ := hxm
      exact ⟨c, x, requires_trans hr (.step hk hcx (.inl (.inr ⟨r, hp, hpx.2.1.symm⟩)) (.refl hcx)), hcx, hpx.2.1⟩

/-- What the search comes to: it comes to an end, finds nothing but what the resource requires, finds what the resource
stands on, the providers of that, and what those stand on. -/
theorem transitive_spec {E} {rs : List State} (h : Intact E rs) (hse : Settled rs) :
    ∃ N, ∀ fuel, N ≤ fuel → ∀ order i, WalksAll rs order → i < rs.length →
      ∃ l, transitiveDependenciesOf rs fuel order i = some l ∧
        (∀ k ∈ l, k ≠ i ∧ Requires rs i k) ∧
        (∀ k, k ≠ i → (StandsOn rs i k ∨ ∃ a p, StandsOn rs i a ∧ ProviderOf rs a p ∧ StandsOn rs p k) → k ∈ l) := by
  have ho := settled_once h hse
  obtain ⟨N, hN⟩ := mark_some h ho hse.named rs.length
  refine ⟨N, fun fuel hf order i hw hi => ?_⟩
  have hs : rs[i]? = some rs[i] := List.getElem?_eq_getElem hi
  obtain ⟨m1, h1⟩ := hN fuel hf i _ hi hs ⟨[], []⟩
  obtain ⟨m2, h2⟩ := markProviders_some (rs := rs) (fuel := fuel) order m1 (by
    intro u hu m
    obtain ⟨s, hsm, rfl⟩ := (hw.2 u).1 hu
    obtain ⟨q, hq, rfl⟩ := List.getElem_of_mem hsm
    exact hN fuel hf q _ hq (List.getElem?_eq_getElem hq) m)
  unfold transitiveDependenciesOf
  rw [hs]; simp only; rw [h1]; simp only; rw [h2]; simp only
  refine ⟨_, rfl, ?_, ?_⟩
  · intro k hk
    simp only [List.mem_filter, List.mem_range, Bool.and_eq_true, decide_eq_true_eq, List.any_eq_true] at hk
    obtain ⟨_, hki, u, hu, hnk⟩ := hk
    refine ⟨hki, ?_⟩
    have hcl := requires_closed h ho i
    have hw1 := (mark_within rs hcl fuel).1 _ _ _ h1 ⟨i, _, .refl hs, hs, rfl⟩ ⟨by simp, by simp⟩
    have hw2 := markProviders_within hcl order m1 m2 h2 hw1
    obtain ⟨k', t, hr, hk', e⟩ := hw2.1 u hu
    obtain ⟨x, hx, e'⟩ := (nodeOf_once ho).1 hnk
    rw [once_inj ho hx hk' (by rw [e, e'])]
    exact hr
  · intro k hki hk
    obtain ⟨_, him, hg1⟩ := (mark_good rs fuel).1 _ _ _ [] h1 (by intro u hu; simp at hu)
    obtain ⟨gr, hg2, hall⟩ := markProviders_good order m1 m2 h2 hg1
    have : ∃ t, rs[k]? = some t ∧ t.urn ∈ m2.marked := by
      rcases hk with hk | ⟨a, p, ha, hp, hk⟩
      · exact standsOn_marked ho hg2 hk ⟨_, hs, gr.1 _ him⟩
      · have hma := standsOn_marked ho hg1 ha ⟨_, hs, him⟩
        obtain ⟨t, ht, htp⟩ := provider_noted ho hg1 hp hma
        exact standsOn_marked ho hg2 hk ⟨t, ht, hall _ ((hw.2 _).2 ⟨t, List.mem_of_getElem? ht, rfl⟩) htp⟩
    obtain ⟨t, ht, htm⟩ := this
    simp only [List.mem_filter, List.mem_range, Bool.and_eq_true, decide_eq_true_eq, List.any_eq_true]
    exact ⟨(List.getElem?_eq_some_iff.1 ht).1, hki, t.urn, htm, (nodeOf_once ho).2 ⟨t, ht, rfl⟩⟩

theorem standsOn_snoc {rs : List State} {a b c : Nat} {s t : State} (h : StandsOn rs a b) (hs : rs[b]? = some s)
    (ht : rs[c]? = some t) (hst : t.urn ∈ s.deps ∨ t.urn = s.parent) : StandsOn rs a c := by
  induction h with
  | refl _ => exact .step hs ht hst (.refl ht)
  | step h1 h2 h3 _ ih => exact .step h1 h2 h3 (ih hs)

/-- Without chains of providers, what is required is found. -/
theorem requires_found {rs : List State} {i : Nat} (hc : NoProviderChain rs i) {a k : Nat} (h : Requires rs a k) :
    (StandsOn rs i a ∨ ∃ x p, StandsOn rs i x ∧ ProviderOf rs x p ∧ StandsOn rs p a) →
    StandsOn rs i k ∨ ∃ x p, StandsOn rs i x ∧ ProviderOf rs x p ∧ StandsOn rs p k := by
  induction h with
  | refl _ => exact id
  | @step a b c s t h1 h2 h3 _ ih =>
    intro hd
    apply ih
    have hor : (t.urn ∈ s.deps ∨ t.urn = s.parent) ∨ ProviderOf rs a b := by
      rcases h3 with (h3 | ⟨r, hr, e⟩) | h3
      · exact .inl (.inl h3)
      · exact .inr ⟨s, t, r, h1, h2, hr, e⟩
      · exact .inl (.inr h3)
    rcases hor with hor | hor
    · rcases hd with hd | ⟨x, p, hx, hp, hd⟩
      · exact .inl (standsOn_snoc hd h1 h2 hor)
      · exact .inr ⟨x, p, hx, hp, standsOn_snoc hd h1 h2 hor⟩
    · rcases hd with hd | ⟨x, p, hx, hp, hd⟩
      · exact .inr ⟨a, b, hd, hor, .refl h2⟩
      · obtain ⟨a', ha', hp'⟩ := hc x p a b hx hp hd hor
        exact .inr ⟨a', b, ha', hp', .refl h2⟩

theorem sparedFrom_spec {rs : List State} {fuel : Nat} {order : Nat → List String} : ∀ (is : List Nat),
    (∀ i ∈ is, i < rs.length) → (∀ i ∈ is, ∃ l, transitiveDependenciesOf rs fuel (order i) i = some l) →
    ∃ sp, sparedFrom rs fuel order is = some sp ∧
      ∀ k, k ∈ sp ↔ ∃ i ∈ is, ∃ s, rs[i]? = some s ∧ s.protect = true ∧
        (k = i ∨ ∃ l, transitiveDependenciesOf rs fuel (order i) i = some l ∧ k ∈ l) := by
  intro is
  induction is with
  | nil => intro _ _; exact ⟨[], rfl, by simp⟩
  | cons i is ih =>
    intro hlt hl
    obtain ⟨sp, h1, h2⟩ := ih (fun x hx => hlt x (by simp [hx])) (fun x hx => hl x (by simp [hx]))
    obtain ⟨l, hli⟩ := hl i (by simp)
    have hil := hlt i (by simp)
    have hs : rs[i]? = some rs[i] := List.getElem?_eq_getElem hil
    unfold sparedFrom
    rw [hs]; simp only
    by_cases hp : rs[i].protect = true
    · rw [if_pos hp, hli, h1]
      refine ⟨_, rfl, fun k => ?_⟩
      simp only [List.cons_append, List.mem_cons, List.mem_append, h2, exists_eq_or_imp, hs, Option.some.injEq,
        exists_eq_left', hp, true_and, hli]
      constructor
      · rintro (rfl | h | h)
        · exact .inl (.inl rfl)
        · exact .inl (.inr h)
        · exact .inr h
      · rintro ((rfl | h) | h)
        · exact .inl rfl
        · exact .inr (.inl h)
        · exact .inr (.inr h)
    · rw [if_neg hp, h1]
      refine ⟨_, rfl, fun k => ?_⟩
      rw [h2]
      simp only [List.mem_cons, exists_eq_or_imp, hs, Option.some.injEq, exists_eq_left', hp, false_and, false_or,
        Bool.false_eq_true]

theorem spared_spec {E} {rs : List State} (h : Intact E rs) (hse : Settled rs) :
    ∃ N, ∀ fuel, N ≤ fuel → ∀ order : Nat → List String, (∀ i, WalksAll rs (order i)) →
      ∃ sp, spared rs fuel order = some sp ∧ (∀ k ∈ sp, Kept rs k) ∧
        (∀ i s k, rs[i]? = some s → s.protect = true →
          (StandsOn rs i k ∨ ∃ a p, StandsOn rs i a ∧ ProviderOf rs a p ∧ StandsOn rs p k) → k ∈ sp) := by
  obtain ⟨N, hN⟩ := transitive_spec h hse
  refine ⟨N, fun fuel hf order hw => ?_⟩
  obtain ⟨sp, h1, h2⟩ := sparedFrom_spec (rs := rs) (fuel := fuel) (order := order) (List.range rs.length)
    (fun i hi => List.mem_range.1 hi) (fun i hi => by
      obtain ⟨l, hl, _⟩ := hN fuel hf (order i) i (hw i) (List.mem_range.1 hi); exact ⟨l, hl⟩)
  refine ⟨sp, h1, ?_, ?_⟩
  · intro k hk
    obtain ⟨i, hi, s, hs, hp, hor⟩ := (h2 k).1 hk
    refine ⟨i, s, hs, hp, ?_⟩
    rcases hor with rfl | ⟨l, hl, hkl⟩
    · exact .refl hs
    · obtain ⟨l', hl', hsound, _⟩ := hN fuel hf (order i) i (hw i) (List.mem_range.1 hi)
      rw [hl] at hl'; cases hl'
      exact (hsound k hkl).2
  · intro i s k hs hp hor
    have hi := (List.getElem?_eq_some_iff.1 hs).1
    refine (h2 k).2 ⟨i, List.mem_range.2 hi, s, hs, hp, ?_⟩
    by_cases hki : k = i
    · exact .inl hki
    · obtain ⟨l', hl', _, hcomp⟩ := hN fuel hf (order i) i (hw i) hi
      exact .inr ⟨l', hl', hcomp k hki hor⟩

end Pulumi.DepGraph
