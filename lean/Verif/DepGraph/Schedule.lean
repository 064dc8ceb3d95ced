import Verif.DepGraph.Lemmas
namespace Pulumi.DepGraph
open Pulumi.Snapshot (State Provider Ref Env Intact Backed)

/-! ## Building the graph -/

theorem lastIndex_cases (urn : String) : ∀ (l : List State) (i found : Nat),
    (∃ k, ∃ h : k < l.length, l[k].urn = urn ∧ lastIndex urn l i found = i + k ∧
      ∀ k', (h' : k' < l.length) → k < k' → l[k'].urn ≠ urn) ∨
    ((∀ s ∈ l, s.urn ≠ urn) ∧ lastIndex urn l i found = found) := by
  intro l
  induction l with
  | nil => intro i found; exact Or.inr ⟨by simp, rfl⟩
  | cons s ss ih =>
    intro i found
    unfold lastIndex
    rcases ih (i + 1) (if s.urn = urn then i else found) with ⟨k, hk, h1, h2, h3⟩ | ⟨h1, h2⟩
    · refine Or.inl ⟨k + 1, by simp; omega, by simpa using h1, by rw [h2]; omega, ?_⟩
      intro k' hk' hlt
      cases k' with
      | zero => omega
      | succ k' => simpa using h3 k' (by simp at hk'; omega) (by omega)
    · by_cases hs : s.urn = urn
      · refine Or.inl ⟨0, by simp, by simpa using hs, by rw [h2]; simp [hs], ?_⟩
        intro k' hk' hlt
        cases k' with
        | zero => omega
        | succ k' => simpa using h1 _ (List.getElem_mem _)
      · refine Or.inr ⟨?_, by rw [h2]; simp [hs]⟩
        intro x hx
        rcases List.mem_cons.1 hx with rfl | hx
        · exact hs
        · exact h1 x hx

/-- Who is listed once is found by its URN. -/
theorem lastIndex_once {rs : List State} {a n : Nat} {s : State} (ho : Once rs) (ha : rs[a]? = some s) (hn : a < n) :
    lastIndex s.urn (rs.take n) 0 0 = a := by
  obtain ⟨hla, rfl⟩ := List.getElem?_eq_some_iff.1 ha
  rcases lastIndex_cases rs[a].urn (rs.take n) 0 0 with ⟨k, hk, h1, h2, _⟩ | ⟨h1, _⟩
  · rw [List.getElem_take] at h1
    have := once_inj ho (List.getElem?_eq_getElem (by simp at hk; omega)) ha h1
    omega
  · exact absurd rfl (h1 rs[a] (List.mem_take_iff_getElem.2 ⟨a, by omega, rfl⟩))

theorem climb_spec {E} {rs : List State} (h : Intact E rs) (ho : Once rs) {n : Nat} :
    ∀ (m fuel : Nat) (b : Nat) (s : State), b < m → b < n → m < fuel → rs[b]? = some s →
    ∃ l, climb (rs.take n) fuel s.parent = some l ∧ ∀ u, u ∈ l ↔ u ≠ "" ∧ Descends rs u b := by
  intro m
  induction m with
  | zero => intro fuel b s hb; omega
  | succ m ih =>
    intro fuel b s hb hbn hf hs
    cases fuel with
    | zero => omega
    | succ fuel =>
      unfold climb
      by_cases hp : s.parent = ""
      · rw [if_pos hp]
        refine ⟨[], rfl, fun u => ?_⟩
        simp only [List.not_mem_nil, false_iff]
        rintro ⟨hu, hd⟩
        cases hd with
        | child h1 h2 => rw [hs] at h1; cases h1; exact hu (by rw [← h2, hp])
        | through h1 _ =>
          obtain ⟨s', t, h1, _, h2, h3⟩ := h1
          rw [hs] at h1; cases h1; exact h3 (by rw [← h2, hp])
      · rw [if_neg hp]
        have hb' := backed_at h hs
        rcases hb'.parent with h1 | ⟨x, hx, e⟩
        · exact absurd h1 hp
        · obtain ⟨c, hc, hcx⟩ := take_mem hx
          have hl : lastIndex s.parent (rs.take n) 0 0 = c := by
            rw [← e]; exact lastIndex_once ho hcx (by omega)
          have hget : (rs.take n)[c]? = some x := by rw [List.getElem?_take]; simp [hcx]; omega
          rw [hl, hget]
          obtain ⟨l, hl1, hl2⟩ := ih fuel c x (by omega) (by omega) (by omega) hcx
          refine ⟨s.parent :: l, by simp [hl1], fun u => ?_⟩
          rw [List.mem_cons, hl2]
          constructor
          · rintro (rfl | ⟨h1, h2⟩)
            · exact ⟨hp, .child hs rfl⟩
            · exact ⟨h1, .through ⟨s, x, hs, hcx, e.symm, by rw [e]; exact hp⟩ h2⟩
          · rintro ⟨hu, hd⟩
            cases hd with
            | child h1 h2 => rw [hs] at h1; cases h1; exact Or.inl h2.symm
            | through h1 h2 =>
              obtain ⟨s', t, h3, h4, h5, _⟩ := h1
              rw [hs] at h3; cases h3
              have := once_inj ho hcx h4 (by rw [e, h5])
              subst this
              exact Or.inr ⟨hu, h2⟩

theorem ancestorsOf_spec {E} {rs : List State} (h : Intact E rs) (ho : Once rs) : ∀ n, n ≤ rs.length →
    ∃ g, ancestorsOf rs n = some g ∧ g.length = n ∧ ∀ b < n, ∃ l, g[b]? = some l ∧ ∀ u, u ∈ l ↔ u ≠ "" ∧ Descends rs u b := by
  intro n
  induction n with
  | zero => intro _; exact ⟨[], rfl, rfl, fun b hb => by omega⟩
  | succ n ih =>
    intro hn
    obtain ⟨g, hg, hlen, hgs⟩ := ih (by omega)
    have hs : rs[n]? = some rs[n] := List.getElem?_eq_getElem (by omega)
    obtain ⟨l, hl, hls⟩ := climb_spec h ho (n := n + 1) (n + 1) (rs.length + 2) n _ (by omega) (by omega) (by omega) hs
    have ha : ancestors rs n = some l := by unfold ancestors; rw [hs]; exact hl
    refine ⟨g ++ [l], by unfold ancestorsOf; rw [hg]; simp only; rw [ha], by simp [hlen], ?_⟩
    intro b hb
    by_cases hbn : b < n
    · obtain ⟨l', h1, h2⟩ := hgs b hbn
      exact ⟨l', by rw [List.getElem?_append_left (by omega)]; exact h1, h2⟩
    · have : b = n := by omega
      subst this
      exact ⟨l, by rw [List.getElem?_append_right (by omega)]; simp [hlen], hls⟩

theorem newGraph_spec {E} {rs : List State} (h : Intact E rs) (ho : Once rs) :
    ∃ g, newGraph rs = some g ∧ ∀ u b, b ∈ childrenOf g u ↔ u ≠ "" ∧ b < rs.length ∧ Descends rs u b := by
  obtain ⟨g, hg, hlen, hgs⟩ := ancestorsOf_spec h ho rs.length (Nat.le_refl _)
  refine ⟨g, hg, fun u b => ?_⟩
  unfold childrenOf
  rw [List.mem_filter, List.mem_range, hlen]
  constructor
  · rintro ⟨hb, hd⟩
    obtain ⟨l, hl, hls⟩ := hgs b hb
    rw [hl] at hd
    simp only [Option.getD_some, decide_eq_true_eq] at hd
    have := (hls u).1 hd
    exact ⟨this.1, hb, this.2⟩
  · rintro ⟨hu, hb, hd⟩
    obtain ⟨l, hl, hls⟩ := hgs b hb
    rw [hl]
    exact ⟨hb, by simpa using (hls u).2 ⟨hu, hd⟩⟩

/-! ## `DependenciesOf` -/

theorem dependentUrns_spec {s : State} (h : ∀ m, s.provider ≠ .malformed m) :
    ∃ l, dependentUrns s = some l ∧ ∀ u, u ∈ l ↔ Names s u := by
  unfold dependentUrns Names
  cases hp : s.provider with
  | malformed m => exact absurd hp (h m)
  | none => exact ⟨_, rfl, by simp⟩
  | ref r => exact ⟨_, rfl, by intro u; simp [eq_comm]⟩

/-- Whatever the graph, `dependenciesOf` only lists earlier positions. -/
theorem dependenciesOf_lt {rs g i l} (h : dependenciesOf rs g i = some l) : ∀ d ∈ l, d < i := by
  unfold dependenciesOf at h
  cases hs : rs[i]? with
  | none => rw [hs] at h; cases h
  | some s =>
    rw [hs] at h; simp only at h
    cases hu : dependentUrns s with
    | none => rw [hu] at h; cases h
    | some urns =>
      rw [hu] at h; simp only [Option.some.injEq] at h
      subst h
      intro d hd
      obtain ⟨c, hc, hd⟩ := List.mem_flatMap.1 hd
      rw [List.mem_reverse, List.mem_range] at hc
      cases ht : rs[c]? with
      | none => rw [ht] at hd; cases hd
      | some t =>
        rw [ht] at hd
        simp only [dependenciesAt, List.mem_append] at hd
        rcases hd with hd | hd
        · by_cases h1 : t.urn ∈ urns
          · rw [if_pos h1] at hd
            rcases List.mem_cons.1 hd with rfl | hd
            · exact hc
            · cases hcu : t.custom with
              | true => rw [hcu] at hd; cases hd
              | false =>
                rw [hcu] at hd
                simpa using (List.mem_filter.1 hd).2
          · rw [if_neg h1] at hd; cases hd
        · by_cases h1 : t.urn = s.parent
          · rw [if_pos h1, List.mem_singleton] at hd; omega
          · rw [if_neg h1] at hd; cases hd

theorem dependenciesOf_some {rs g i} (hp : Parsed rs) (hi : i < rs.length) : ∃ l, dependenciesOf rs g i = some l := by
  have hs : rs[i]? = some rs[i] := List.getElem?_eq_getElem hi
  obtain ⟨l, hl, _⟩ := dependentUrns_spec (s := rs[i]) (fun m => hp _ (List.getElem_mem _) m)
  unfold dependenciesOf
  rw [hs]; simp only; rw [hl]
  exact ⟨_, rfl⟩

theorem dependenciesOf_spec {E} {rs : List State} (h : Intact E rs) (ho : Once rs) {g i} (hg : newGraph rs = some g)
    (hi : i < rs.length) : ∃ l, dependenciesOf rs g i = some l ∧ ∀ d, d ∈ l ↔ Needs rs i d := by
  obtain ⟨g', hg', hch⟩ := newGraph_spec h ho
  rw [hg] at hg'; cases hg'
  have hs : rs[i]? = some rs[i] := List.getElem?_eq_getElem hi
  generalize hse : rs[i] = s at hs
  obtain ⟨urns, hu, hus⟩ := dependentUrns_spec (s := s) (fun m => hse ▸ intact_parsed h _ (List.getElem_mem _) m)
  unfold dependenciesOf
  rw [hs]; simp only; rw [hu]
  refine ⟨_, rfl, fun d => ?_⟩
  rw [List.mem_flatMap]
  constructor
  · rintro ⟨c, hc, hd⟩
    rw [List.mem_reverse, List.mem_range] at hc
    cases ht : rs[c]? with
    | none => rw [ht] at hd; cases hd
    | some t =>
      rw [ht] at hd
      simp only [dependenciesAt, List.mem_append] at hd
      rcases hd with hd | hd
      · by_cases h1 : t.urn ∈ urns
        · rw [if_pos h1] at hd
          have hr : Refers rs i c := ⟨s, t, hs, ht, (hus _).1 h1⟩
          rcases List.mem_cons.1 hd with rfl | hd
          · exact ⟨hc, Or.inl hr⟩
          · cases hcu : t.custom with
            | true => rw [hcu] at hd; cases hd
            | false =>
              rw [hcu] at hd
              simp only [Bool.false_eq_true, if_false, List.mem_filter, decide_eq_true_eq] at hd
              obtain ⟨h2, h3⟩ := hd
              obtain ⟨h4, _, h5⟩ := (hch _ _).1 h2
              exact ⟨h3, Or.inr (Or.inr ⟨c, t, hc, hr, ht, hcu, h4, h5⟩)⟩
        · rw [if_neg h1] at hd; cases hd
      · by_cases h1 : t.urn = s.parent
        · rw [if_pos h1, List.mem_singleton] at hd
          subst hd
          exact ⟨hc, Or.inr (Or.inl ⟨s, t, hs, ht, h1⟩)⟩
        · rw [if_neg h1] at hd; cases hd
  · rintro ⟨hlt, hr | ⟨s', t, h1, h2, h3⟩ | ⟨c, t, hc, hr, ht, hcu, hne, hd⟩⟩
    · obtain ⟨s', t, h1, h2, h3⟩ := hr
      rw [hs] at h1; cases h1
      refine ⟨d, by simpa using hlt, ?_⟩
      rw [h2]
      simp only [dependenciesAt, List.mem_append]
      left; rw [if_pos ((hus _).2 h3)]; exact List.mem_cons_self
    · rw [hs] at h1; cases h1
      refine ⟨d, by simpa using hlt, ?_⟩
      rw [h2]
      simp only [dependenciesAt, List.mem_append]
      right; rw [if_pos h3]; exact List.mem_singleton.2 rfl
    · obtain ⟨s', t', h1, h2, h3⟩ := hr
      rw [hs] at h1; cases h1
      rw [ht] at h2; cases h2
      refine ⟨c, by simpa using hc, ?_⟩
      rw [ht]
      simp only [dependenciesAt, List.mem_append]
      left; rw [if_pos ((hus _).2 h3), hcu]
      refine List.mem_cons_of_mem _ ?_
      simp only [Bool.false_eq_true, if_false, List.mem_filter, decide_eq_true_eq]
      exact ⟨(hch _ _).2 ⟨hne, by omega, hd⟩, hlt⟩

/-! ## The schedule -/

/-- The dependencies the schedule goes by. -/
def Dep (rs : List State) (g : List (List String)) (a b : Nat) : Prop := ∃ l, dependenciesOf rs g a = some l ∧ b ∈ l

theorem ready_spec {rs g condemned} : ∀ {is : List Nat}, (∀ i ∈ is, ∃ l, dependenciesOf rs g i = some l) →
    ∃ l, ready rs g condemned is = some l ∧ l.Sublist is ∧
      ∀ i, i ∈ l ↔ i ∈ is ∧ ∀ d, Dep rs g i d → d ∉ condemned := by
  intro is
  induction is with
  | nil => intro _; exact ⟨[], rfl, List.Sublist.refl _, by simp⟩
  | cons i is ih =>
    intro hs
    obtain ⟨l, h1, hsub, h2⟩ := ih (fun i hi => hs i (List.mem_cons_of_mem _ hi))
    obtain ⟨ds, hds⟩ := hs i List.mem_cons_self
    unfold ready
    rw [hds]; simp only; rw [h1]; simp only
    by_cases hc : ds.any (fun d => decide (d ∈ condemned)) = true
    · rw [if_pos hc]
      refine ⟨l, rfl, hsub.cons _, fun j => ?_⟩
      rw [h2, List.mem_cons]
      constructor
      · rintro ⟨h, h'⟩; exact ⟨Or.inr h, h'⟩
      · rintro ⟨rfl | h, h'⟩
        · obtain ⟨d, hd, hd'⟩ := List.any_eq_true.1 hc
          exact absurd (by simpa using hd') (h' d ⟨ds, hds, hd⟩)
        · exact ⟨h, h'⟩
    · rw [if_neg hc]
      refine ⟨i :: l, rfl, hsub.cons_cons _, fun j => ?_⟩
      rw [List.mem_cons, h2, List.mem_cons]
      constructor
      · rintro (rfl | ⟨h, h'⟩)
        · refine ⟨Or.inl rfl, ?_⟩
          rintro d ⟨l', hl', hd⟩ hcd
          rw [hds] at hl'; cases hl'
          exact hc (List.any_eq_true.2 ⟨d, hd, by simpa using hcd⟩)
        · exact ⟨Or.inr h, h'⟩
      · rintro ⟨rfl | h, h'⟩
        · exact Or.inl rfl
        · exact Or.inr ⟨h, h'⟩

theorem exists_min : ∀ (l : List Nat), l ≠ [] → ∃ a ∈ l, ∀ b ∈ l, a ≤ b := by
  intro l
  induction l with
  | nil => intro h; exact absurd rfl h
  | cons x l ih =>
    intro _
    by_cases hl : l = []
    · subst hl; exact ⟨x, by simp, by simp⟩
    · obtain ⟨a, ha, hmin⟩ := ih hl
      by_cases hxa : x ≤ a
      · refine ⟨x, by simp, fun b hb => ?_⟩
        rcases List.mem_cons.1 hb with rfl | hb
        · exact Nat.le_refl _
        · have := hmin b hb; omega
      · refine ⟨a, List.mem_cons_of_mem _ ha, fun b hb => ?_⟩
        rcases List.mem_cons.1 hb with rfl | hb
        · omega
        · exact hmin b hb

theorem inBatch_cons {b out n a} : InBatch (b :: out) n a ↔ (n = 0 ∧ a ∈ b) ∨ ∃ m, n = m + 1 ∧ InBatch out m a := by
  unfold InBatch
  cases n with
  | zero => simp
  | succ n => simp

/-- What the rounds make of the condemned. -/
structure Rounded (rs : List State) (g : List (List String)) (condemned : List Nat) (out : List (List Nat)) : Prop where
  all : out.flatten.Perm condemned
  nonempty : ∀ b ∈ out, b ≠ []
  ordered : ∀ a b n m, InBatch out n a → InBatch out m b → Dep rs g a b → m < n
  tight : ∀ a n, InBatch out (n + 1) a → ∃ b, InBatch out n b ∧ Dep rs g a b

theorem inBatch_mem {out n a} (h : InBatch out n a) : a ∈ out.flatten := by
  obtain ⟨b, hb, ha⟩ := h
  exact List.mem_flatten.2 ⟨b, List.mem_of_getElem? hb, ha⟩

theorem rounds_spec {rs g order} (ho : Reorders order) : ∀ (fuel : Nat) (condemned : List Nat),
    condemned.length ≤ fuel → condemned.Nodup → (∀ i ∈ condemned, ∃ l, dependenciesOf rs g i = some l) →
    ∃ out, rounds rs g order fuel condemned = some out ∧ Rounded rs g condemned out := by
  intro fuel
  induction fuel with
  | zero =>
    intro condemned hlen _ _
    have : condemned = [] := List.length_eq_zero_iff.1 (by omega)
    subst this
    refine ⟨[], by unfold rounds; simp, ⟨List.Perm.refl _, by simp, ?_, ?_⟩⟩
    · rintro a b n m ⟨_, h, _⟩; simp at h
    · rintro a n ⟨_, h, _⟩; simp at h
  | succ fuel ih =>
    intro condemned hlen hnd hs
    unfold rounds
    by_cases hc : condemned = []
    · subst hc
      refine ⟨[], by simp, ⟨List.Perm.refl _, by simp, ?_, ?_⟩⟩
      · rintro a b n m ⟨_, h, _⟩; simp at h
      · rintro a n ⟨_, h, _⟩; simp at h
    rw [if_neg hc]
    have hord := ho condemned
    obtain ⟨steps, h1, hsub, h2⟩ := ready_spec (rs := rs) (g := g) (condemned := condemned) (is := order condemned)
      (fun i hi => hs i (hord.mem_iff.1 hi))
    have hready : ∀ i, i ∈ steps ↔ i ∈ condemned ∧ ∀ d, Dep rs g i d → d ∉ condemned := by
      intro i; rw [h2, hord.mem_iff]
    simp only
    rw [h1]; simp only
    have hstn : steps.Nodup := hsub.nodup (hord.nodup_iff.2 hnd)
    have hne : steps ≠ [] := by
      obtain ⟨a, ha, hmin⟩ := exists_min condemned hc
      intro h
      have : a ∈ steps := (hready a).2 ⟨ha, fun d ⟨l, hl, hd⟩ hdc => by
        have := dependenciesOf_lt hl d hd
        have := hmin d hdc
        omega⟩
      rw [h] at this; cases this
    generalize hrest : condemned.filter (fun i => decide (i ∉ steps)) = rest
    have hmemrest : ∀ i, i ∈ rest ↔ i ∈ condemned ∧ i ∉ steps := by
      intro i; rw [← hrest, List.mem_filter]; simp
    have hperm : (steps ++ rest).Perm condemned := by
      refine (List.perm_ext_iff_of_nodup ?_ hnd).2 ?_
      · rw [List.nodup_append]
        refine ⟨hstn, ?_, ?_⟩
        · rw [← hrest]; exact hnd.filter _
        · intro a ha b hb e; subst e; exact ((hmemrest a).1 hb).2 ha
      · intro a
        rw [List.mem_append, hmemrest]
        constructor
        · rintro (h | h)
          · exact ((hready a).1 h).1
          · exact h.1
        · intro h
          by_cases ha : a ∈ steps
          · exact Or.inl ha
          · exact Or.inr ⟨h, ha⟩
    have hlen' : rest.length ≤ fuel := by
      have := hperm.length_eq
      rw [List.length_append] at this
      have : 0 < steps.length := List.length_pos_iff.2 hne
      omega
    obtain ⟨out, hout, hr⟩ := ih rest hlen' (by rw [← hrest]; exact hnd.filter _)
      (fun i hi => hs i ((hmemrest i).1 hi).1)
    have hmemout : ∀ {n a}, InBatch out n a → a ∈ condemned ∧ a ∉ steps := by
      intro n a h
      exact (hmemrest a).1 (hr.all.mem_iff.1 (inBatch_mem h))
    refine ⟨steps :: out, by rw [hout]; rfl, ⟨?_, ?_, ?_, ?_⟩⟩
    · rw [List.flatten_cons]
      exact (List.Perm.append_left steps hr.all).trans hperm
    · intro b hb
      rcases List.mem_cons.1 hb with rfl | hb
      · exact hne
      · exact hr.nonempty b hb
    · intro a b n m ha hb hd
      rw [inBatch_cons] at ha hb
      rcases ha with ⟨rfl, ha⟩ | ⟨n, rfl, ha⟩
      · have hdn := ((hready a).1 ha).2 b hd
        rcases hb with ⟨rfl, hb⟩ | ⟨m, rfl, hb⟩
        · exact absurd ((hready b).1 hb).1 hdn
        · exact absurd (hmemout hb).1 hdn
      · rcases hb with ⟨rfl, hb⟩ | ⟨m, rfl, hb⟩
        · omega
        · have := hr.ordered a b n m ha hb hd; omega
    · intro a n ha
      rw [inBatch_cons] at ha
      rcases ha with ⟨h, _⟩ | ⟨n', e, ha⟩
      · omega
      · have : n = n' := by omega
        subst this
        cases n with
        | succ n =>
          obtain ⟨b, hb, hd⟩ := hr.tight a n ha
          exact ⟨b, by rw [inBatch_cons]; exact Or.inr ⟨n, rfl, hb⟩, hd⟩
        | zero =>
          obtain ⟨hac, hans⟩ := hmemout ha
          have hnot : ¬ ∀ d, Dep rs g a d → d ∉ condemned := fun h => hans ((hready a).2 ⟨hac, h⟩)
          have : ∃ d, Dep rs g a d ∧ d ∈ condemned := by
            refine Classical.byContradiction fun hcon => hnot fun d hd hdc => hcon ⟨d, hd, hdc⟩
          obtain ⟨d, hd, hdc⟩ := this
          refine ⟨d, ?_, hd⟩
          rw [inBatch_cons]
          refine Or.inl ⟨rfl, ?_⟩
          -- otherwise `d` is left over, and comes in the same batch or a later one
          refine Classical.byContradiction fun hds => ?_
          have hdr : d ∈ out.flatten := hr.all.mem_iff.2 ((hmemrest d).2 ⟨hdc, hds⟩)
          obtain ⟨b, hb, hdb⟩ := List.mem_flatten.1 hdr
          obtain ⟨m, hm, e⟩ := List.getElem_of_mem hb
          have hdm : InBatch out m d := ⟨b, by rw [List.getElem?_eq_getElem hm, e], hdb⟩
          have := hr.ordered a d 0 m ha hdm hd
          omega

theorem inBatch_reverse {out : List (List Nat)} {n a : Nat} : InBatch out.reverse n a ↔ n < out.length ∧ InBatch out (out.length - 1 - n) a := by
  unfold InBatch
  constructor
  · rintro ⟨b, hb, ha⟩
    have hn : n < out.length := by
      have := (List.getElem?_eq_some_iff.1 hb).1
      simpa using this
    exact ⟨hn, b, by rw [← List.getElem?_reverse hn]; exact hb, ha⟩
  · rintro ⟨hn, b, hb, ha⟩
    exact ⟨b, by rw [List.getElem?_reverse hn]; exact hb, ha⟩

end Pulumi.DepGraph
