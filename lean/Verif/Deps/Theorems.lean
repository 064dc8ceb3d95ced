import Verif.Deps.Lemmas
/-!
# Property theorems: C26 (dependencies sent), C27 (acyclic declarations), C28 (aliases)
-/
namespace Pulumi.Deps

/-! ## C27: declared dependencies never form a cycle -/

/-- For every history of declarations starting from nothing, the calls all return, and the recorded graph is
acyclic. -/
theorem declared_acyclic (h : List (ResId × ResId)) :
    ∃ g rs, declareAll? [] h = some (g, rs) ∧ Acyclic (Edge g) := by
  obtain ⟨g, rs, E', h1, h2, h3⟩ := declareAll_history h []
  refine ⟨g, rs, h1, acyclic_iff h3 (history_acyclic h2 ?_)⟩
  intro a p
  cases p with
  | one e => simp [Edge, deps] at e
  | cons e _ => simp [Edge, deps] at e

/-- The same histories refine the abstract specification: answers and recorded relation are exactly those of
`History` (accept iff no reverse path; an accepted declaration adds exactly its edge; a refused one adds
nothing). -/
theorem declare_refines_history (g : Graph) (h : List (ResId × ResId)) :
    ∃ g' rs E', declareAll? g h = some (g', rs) ∧ History (Edge g) h rs E' ∧
      ∀ x y, E' x y ↔ Edge g' x y := declareAll_history h g

/-- One declaration in any graph: refused exactly when the reverse path exists, in which case nothing changes. -/
theorem declare_refused_iff (g : Graph) (a b : ResId) :
    ∃ g' r, declare? g a b = some (g', r) ∧
      (r = false ↔ Reaches (Edge g) b a) ∧
      (r = false → g' = g) ∧
      (r = true → ∀ x y, Edge g' x y ↔ Edge g x y ∨ (x = a ∧ y = b)) := by
  rcases declare_spec g a b with ⟨hr, hd⟩ | ⟨hr, hd⟩
  · exact ⟨g, false, hd, by simp [hr], by simp, by simp⟩
  · exact ⟨_, true, hd, by simp [hr], by simp, fun _ => edge_addDep g a b⟩

/-- Refusing is necessary: accepting a refused declaration would have closed a cycle. -/
theorem refused_would_close_cycle (g : Graph) (a b : ResId) (g' : Graph)
    (h : declare? g a b = some (g', false)) :
    Path (fun x y => Edge g x y ∨ (x = a ∧ y = b)) a a := by
  rcases declare_spec g a b with ⟨hr, _⟩ | ⟨_, hd⟩
  · rcases hr with rfl | hp
    · exact .one (.inr ⟨rfl, rfl⟩)
    · exact .cons (.inr ⟨rfl, rfl⟩) (hp.mono fun _ _ h => .inl h)
  · rw [hd] at h; simp at h

/-- No deadlock among resources that wait for the dependencies they recorded: after any history, every
nonempty finite set of resources contains one that waits for no member of the set. -/
theorem waiting_never_deadlocks (h : List (ResId × ResId)) (g : Graph) (rs : List Bool)
    (hg : declareAll? [] h = some (g, rs)) (s : List ResId) (hs : s ≠ []) :
    ∃ m ∈ s, ∀ y ∈ s, ¬ Edge g m y := by
  obtain ⟨g', rs', h1, h2⟩ := declared_acyclic h
  rw [hg] at h1; cases h1
  obtain ⟨m, hm, hmin⟩ := exists_sink h2 s hs
  exact ⟨m, hm, fun y hy he => hmin y hy (.one he)⟩

-- Non-vacuity: a three-step history whose last declaration is refused; and a self-dependency is refused.
example : declareAll? [] [(1, 2), (2, 3), (3, 1), (1, 3), (4, 4)] =
    some ([(1, [2, 3]), (2, [3])], [true, true, false, true, false]) := by decide
example : ∃ m ∈ [1, 2, 3], ∀ y ∈ [1, 2, 3], ¬ Edge [(1, [2, 3]), (2, [3])] m y :=
  ⟨3, by decide, by intro y _; simp [Edge, deps]⟩

/-! ## C26: dependencies sent to the engine -/

/-- Expanding the resources `rs` on behalf of `self`, in any dependency graph, terminates, and
* every URN in the result belongs to a frontier resource of some `r ∈ rs`;
* every frontier resource with a usable URN has its URN in the result, unless it already (transitively)
  depended on `self` in the graph at the start (or is `self`), in which case adding it would have created a cycle;
* an acyclic graph stays acyclic. -/
theorem expand_complete (g : Graph) (rs : List Res) (self : ResId) :
    ∃ e, expandDependencies g rs (some self) = some e ∧
      (∀ u ∈ e.urns, ∃ r ∈ rs, ∃ x, Frontier r x ∧ HasUrn x u) ∧
      (∀ r ∈ rs, ∀ x, Frontier r x → ∀ u, HasUrn x u →
        u ∈ e.urns ∨ Reaches (Edge g) x.id self) ∧
      (Acyclic (Edge g) → Acyclic (Edge e.graph)) := by
  obtain ⟨e, h1, h2⟩ := addDependencies_ok { graph := g, urns := [] } rs (some self)
  refine ⟨e, h1, ?_, ?_, h2.acyclic⟩
  · intro u hu
    rcases h2.sound u hu with h | ⟨x, ⟨r, hr, hx⟩, hu⟩
    · simp at h
    · exact ⟨r, hr, x, hx, hu⟩
  · intro r hr x hx u hu
    rcases h2.complete_initial x ⟨r, hr, hx⟩ with h | h
    · exact .inl (h u hu)
    · exact .inr h

/-- Without an originating resource (no cycle breaking) the result is exactly the set of frontier URNs. -/
theorem expand_exact (g : Graph) (rs : List Res) :
    ∃ e, expandDependencies g rs none = some e ∧
      ∀ u, u ∈ e.urns ↔ ∃ r ∈ rs, ∃ x, Frontier r x ∧ HasUrn x u := by
  obtain ⟨e, h1, h2⟩ := addDependencies_ok { graph := g, urns := [] } rs none
  refine ⟨e, h1, fun u => ⟨?_, ?_⟩⟩
  · intro hu
    rcases h2.sound u hu with h | ⟨x, ⟨r, hr, hx⟩, hu⟩
    · simp at h
    · exact ⟨r, hr, x, hx, hu⟩
  · rintro ⟨r, hr, x, hx, hu⟩
    rcases h2.complete x ⟨r, hr, hx⟩ with h | ⟨f, hf, _⟩
    · exact h u hu
    · cases hf

/-- The registration request: every explicit dependency and every usable frontier URN of every property's
resources is among the dependencies (or depended on `self` beforehand), each property's own list is a subset of
the dependencies, nothing else is in the dependencies, and the properties are listed in order. -/
theorem prepared_dependencies_complete (self : ResId) (props : List (String × List Res)) :
    ∀ (g : Graph) (explicitUrns : List String),
    ∃ p, prepareDeps g explicitUrns self props = some p ∧
      (∀ u ∈ explicitUrns, u ∈ p.dependencies) ∧
      (∀ k rs, (k, rs) ∈ props → ∀ r ∈ rs, ∀ x, Frontier r x → ∀ u, HasUrn x u →
        u ∈ p.dependencies ∨ Reaches (Edge g) x.id self) ∧
      (∀ u ∈ p.dependencies, u ∈ explicitUrns ∨ ∃ k us, (k, us) ∈ p.propertyDependencies ∧ u ∈ us) ∧
      (∀ k us, (k, us) ∈ p.propertyDependencies → (∀ u ∈ us, u ∈ p.dependencies) ∧
        ∃ rs, (k, rs) ∈ props ∧ ∀ u ∈ us, ∃ r ∈ rs, ∃ x, Frontier r x ∧ HasUrn x u) ∧
      p.propertyDependencies.map (·.1) = props.map (·.1) ∧
      (∀ x y, Edge p.graph x y → Edge g x y ∨ x = self) ∧
      (Acyclic (Edge g) → Acyclic (Edge p.graph)) := by
  induction props with
  | nil => intro g ex; exact ⟨_, rfl, by simp +contextual⟩
  | cons kv props ih =>
    intro g ex
    obtain ⟨k, rs⟩ := kv
    obtain ⟨e, h1, h2⟩ := addDependencies_ok { graph := g, urns := [] } rs (some self)
    obtain ⟨p, hp, i1, i2, i3, i4, i5, i6, i7⟩ := ih e.graph (setUnion ex e.urns)
    have hback : ∀ x y, Edge e.graph x y → Edge g x y ∨ x = self := by
      intro x y h
      rcases h2.graphSound x y h with h | ⟨h, _⟩
      · exact .inl h
      · cases h; exact .inr rfl
    refine ⟨{ p with propertyDependencies := (k, e.urns) :: p.propertyDependencies },
      by simp [prepareDeps, expandDependencies, h1, hp], ?_, ?_, ?_, ?_, ?_, ?_, ?_⟩
    · intro u hu; exact i1 u ((mem_setUnion _ _ _).2 (.inl hu))
    · intro k' rs' hk r hr x hx u hu
      rcases List.mem_cons.1 hk with hk | hk
      · cases hk
        rcases h2.complete_initial x ⟨r, hr, hx⟩ with h | h
        · exact .inl (i1 u ((mem_setUnion _ _ _).2 (.inr (h u hu))))
        · exact .inr h
      · rcases i2 k' rs' hk r hr x hx u hu with h | h
        · exact .inl h
        · exact .inr (reaches_back hback h)
    · intro u hu
      rcases i3 u hu with h | ⟨k', us, h, h'⟩
      · rcases (mem_setUnion _ _ _).1 h with h | h
        · exact .inl h
        · exact .inr ⟨k, e.urns, by simp, h⟩
      · exact .inr ⟨k', us, by simp [h], h'⟩
    · intro k' us hk
      rcases List.mem_cons.1 hk with hk | hk
      · cases hk
        refine ⟨fun u hu => i1 u ((mem_setUnion _ _ _).2 (.inr hu)), rs, by simp, ?_⟩
        intro u hu
        rcases h2.sound u hu with h | ⟨x, ⟨r, hr, hx⟩, hu⟩
        · simp at h
        · exact ⟨r, hr, x, hx, hu⟩
      · obtain ⟨j1, rs', j2, j3⟩ := i4 k' us hk
        exact ⟨j1, rs', by simp [j2], j3⟩
    · simp [i5]
    · intro x y h
      rcases i6 x y h with h | h
      · exact hback x y h
      · exact .inr h
    · intro h; exact i7 (h2.acyclic h)

/-- Each property's own list is complete too, at the position of the property. -/
theorem property_dependencies_complete (self : ResId) (props : List (String × List Res)) :
    ∀ (g : Graph) (explicitUrns : List String) (p : Prepared),
    prepareDeps g explicitUrns self props = some p →
    ∀ (i : Nat) (k : String) (rs : List Res), props[i]? = some (k, rs) →
      ∃ us, p.propertyDependencies[i]? = some (k, us) ∧
        ∀ r ∈ rs, ∀ x, Frontier r x → ∀ u, HasUrn x u →
          u ∈ us ∨ Reaches (Edge g) x.id self := by
  induction props with
  | nil => intro g ex p _ i k rs h; simp at h
  | cons kv props ih =>
    intro g ex p hp i k rs hi
    obtain ⟨k0, rs0⟩ := kv
    obtain ⟨e, h1, h2⟩ := addDependencies_ok { graph := g, urns := [] } rs0 (some self)
    obtain ⟨q, hq, _⟩ :=
      prepared_dependencies_complete self props e.graph (setUnion ex e.urns)
    simp [prepareDeps, expandDependencies, h1, hq] at hp
    subst hp
    cases i with
    | zero =>
      simp at hi
      obtain ⟨rfl, rfl⟩ := hi
      refine ⟨e.urns, by simp, ?_⟩
      intro r hr x hx u hu
      rcases h2.complete_initial x ⟨r, hr, hx⟩ with h | h
      · exact .inl (h u hu)
      · exact .inr h
    | succ i =>
      obtain ⟨us, j1, j2⟩ := ih _ _ q hq i k rs (by simpa using hi)
      refine ⟨us, by simpa using j1, ?_⟩
      intro r hr x hx u hu
      rcases j2 r hr x hx u hu with h | h
      · exact .inl h
      · refine .inr (reaches_back ?_ h)
        intro x y h
        rcases h2.graphSound x y h with h | ⟨h, _⟩
        · exact .inl h
        · cases h; exact .inr rfl

-- Non-vacuity: the example of the docstring at `runtime/resource.py:785-797`.
def docTree : Res :=
  .mk 1 .localComponent (some "comp1")
    [.mk 2 .custom (some "cust1") [],
     .mk 3 .localComponent (some "comp2")
       [.mk 4 .custom (some "cust2") [.mk 5 .custom (some "cust4") []], .mk 6 .custom (some "cust3") []],
     .mk 7 .remoteComponent (some "remote1") [.mk 8 .localComponent (some "comp3") [.mk 9 .custom (some "cust5") []]]]

example : (expandDependencies [] [docTree] none).map (·.urns) =
    some ["cust1", "cust2", "cust3", "remote1"] := by decide +kernel
example : (expandDependencies [(4, [42])] [docTree] (some 42)).map (·.urns) =
    some ["cust1", "cust3", "remote1"] := by decide +kernel

/-! ## C28: the alias list -/

/-- The alias list sent has no duplicates, contains exactly the given aliases, and is ordered by first
occurrence. These three facts determine it uniquely. -/
theorem aliases_unique_ordered (as : List (Option String)) :
    (dedupAliases [] as).Nodup ∧
    (∀ x, x ∈ dedupAliases [] as ↔ x ∈ as) ∧
    (dedupAliases [] as).Pairwise (fun x y => as.idxOf x < as.idxOf y) :=
  ⟨dedup_nodup as [] (by simp), fun x => by rw [mem_dedup]; simp,
    dedup_ordered_aux as as [] [] (by simp) (by simp) (by simp)⟩

example : dedupAliases [] [some "b", some "a", some "b", none, some "a", none] =
    [some "b", some "a", none] := by decide

end Pulumi.Deps
