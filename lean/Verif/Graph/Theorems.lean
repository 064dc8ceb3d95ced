import Verif.Graph.Lemmas
/-!
# Properties of graph traversals (C12, C43)
-/
namespace Pulumi.Graph

/-- **C12.** On every finite object graph, with sharing and cycles, `contains_unknowns` terminates (more recursion budget
changes nothing) and returns `True` exactly when an unknown is reachable through list elements and dict values. -/
theorem contains_unknowns_exact (h : Heap) (a : Addr) (hfin : Finite h a) :
    ∃ bound, ∀ fuel, bound ≤ fuel → ∃ b, containsUnknowns? h fuel a = some b ∧ (b = true ↔ HoldsUnknown h a) := by
  classical
  obtain ⟨nodes, hn⟩ := hfin
  let ns := nodes.filter fun b => decide (Reaches h a b)
  have hcl : ∀ x ∈ ns, ∀ c ∈ (h x).children, c ∈ ns := by
    intro x hx c hc
    simp only [ns, List.mem_filter, decide_eq_true_eq] at hx ⊢
    have : Reaches h a c := reaches_trans hx.2 (reaches_child hc .refl)
    exact ⟨hn c this, this⟩
  have ha : a ∈ ns := by
    simp only [ns, List.mem_filter, decide_eq_true_eq]; exact ⟨hn a .refl, .refl⟩
  refine ⟨unseen ns [] + 1, fun fuel hf => ?_⟩
  have hp := impl_post hcl fuel a [] ha (by omega) (by simp)
  unfold containsUnknowns?
  cases hi : impl h fuel a [] with
  | none => rw [hi] at hp; exact hp.elim
  | some p =>
    obtain ⟨b, S⟩ := p
    rw [hi] at hp
    cases b with
    | true =>
      obtain ⟨x, hx, hu⟩ := hp
      simp at hx; subst hx
      exact ⟨true, rfl, by simp [hu]⟩
    | false =>
      obtain ⟨_, _, h3, h4⟩ := hp
      refine ⟨false, rfl, by simp, ?_⟩
      rintro ⟨b, hr, hb⟩
      exact absurd hb (closed_no_unknown (fun x hx => h4 x hx (by simp)) (h3 a (by simp)).1 hr)

/-- A list that contains itself and a dict that holds an unknown. -/
def cyclic : Heap
  | 0 => .list [0, 1]
  | 1 => .dict [("k", 0), ("u", 2)]
  | 2 => .unknown
  | _ => .other

/-- Non-vacuity: a cyclic graph is finite, and an unknown is reachable in it. -/
example : Finite cyclic 0 ∧ HoldsUnknown cyclic 0 := by
  constructor
  · refine ⟨[0, 1, 2], ?_⟩
    have : ∀ a b, Reaches cyclic a b → a ∈ [0, 1, 2] → b ∈ [0, 1, 2] := by
      intro a b hr
      induction hr with
      | refl => exact id
      | @dict a es k b c e m _ ih =>
        intro ha
        refine ih ?_
        simp at ha
        rcases ha with rfl | rfl | rfl <;> simp [cyclic] at e
        subst e; simp at m; rcases m with ⟨_, rfl⟩ | ⟨_, rfl⟩ <;> simp
      | @list a xs b c e m _ ih =>
        intro ha
        refine ih ?_
        simp at ha
        rcases ha with rfl | rfl | rfl <;> simp [cyclic] at e
        subst e; simp at m; rcases m with rfl | rfl <;> simp
    intro b hb
    exact this 0 b hb (by simp)
  · exact ⟨2, .list (a := 0) (b := 1) rfl (by simp) (.dict (k := "u") rfl (by simp) .refl), rfl⟩

/-! ## Stack exports -/

/-- **C43.** Converting exported values terminates on every finite object graph, with sharing and cycles, and the plain
data it builds contains no private (underscore) key at any depth. In an update it raises only if a dict with a
non-string key is exported. -/
theorem massage_total (dry : Bool) (h : MHeap) (a : Addr) (hfin : MFinite h a) :
    ∃ bound, ∀ fuel, bound ≤ fuel →
      (∃ e, massage dry h fuel a [] = .raised e ∧
        (dry = true ∨ ∃ b es c, MReaches h a b ∧ h b = .dict es ∧ (.notStr, c) ∈ es)) ∨
      (∃ r seen, massage dry h fuel a [] = .ok (r, seen) ∧ NoPrivateKeys r) := by
  classical
  obtain ⟨nodes, hn⟩ := hfin
  let ns := nodes.filter fun b => decide (MReaches h a b)
  have trans : ∀ a b c, MReaches h a b → c ∈ (h b).below → MReaches h a c := by
    intro a b c h1 h2
    induction h1 with
    | refl => exact .step h2 .refl
    | step m _ ih => exact .step m (ih h2)
  have hcl : ∀ x ∈ ns, ∀ c ∈ (h x).below, c ∈ ns := by
    intro x hx c hc
    simp only [ns, List.mem_filter, decide_eq_true_eq] at hx ⊢
    have : MReaches h a c := trans _ _ _ hx.2 hc
    exact ⟨hn c this, this⟩
  have ha : a ∈ ns := by
    simp only [ns, List.mem_filter, decide_eq_true_eq]; exact ⟨hn a .refl, .refl⟩
  refine ⟨unseen ns [] + 1, fun fuel hf => ?_⟩
  have hp := massage_post (dry := dry) (bad := dry = true ∨ ∃ b es c, MReaches h a b ∧ h b = .dict es ∧ (.notStr, c) ∈ es)
    hcl .inl (by
      intro x hx es c h1 h2
      simp only [ns, List.mem_filter, decide_eq_true_eq] at hx
      exact .inr ⟨x, es, c, hx.2, h1, h2⟩) fuel a [] ha (by omega)
  cases hm : massage dry h fuel a [] with
  | raised e => rw [hm] at hp; exact .inl ⟨e, rfl, hp⟩
  | outOfFuel => rw [hm] at hp; exact hp.elim
  | ok p =>
    rw [hm] at hp
    exact .inr ⟨p.1, p.2, rfl, hp.2⟩

/-- **C43** (partial). If no two references lead to the same non-primitive object, exporting gives exactly the plain form of the
value. Full statement: for every acyclic value; false, see `massage_loses_shared`. -/
theorem massage_faithful_partial {dry h a r ns} (he : Exports dry h a r ns) (hshare : ns.Nodup) :
    ∃ bound, ∀ fuel, bound ≤ fuel → ∃ seen, massage dry h fuel a [] = .ok (r, seen) := by
  obtain ⟨b, hb⟩ := exports_massage he
  exact ⟨b, fun fuel hf => ⟨_, hb fuel hf [] hshare (by simp)⟩⟩

/-- Two exports of the same list object. -/
def shared : MHeap
  | 0 => .dict [(.str "a", 1), (.str "b", 1), (.str "_private", 2)]
  | 1 => .iterable [2]
  | _ => .prim "x"

/-- **C43**, negation: a program that exports the same list object under two names, `a` and `b`, exports `None` for `b`,
although the value is finite and acyclic. -/
theorem massage_loses_shared : ∀ dry, Exports dry shared 0 (.dict [("a", .list [.prim "x"]), ("b", .list [.prim "x"])]) [0, 1, 1] ∧
    ∀ fuel, 3 ≤ fuel → massage dry shared fuel 0 [] = .ok (.dict [("a", .list [.prim "x"]), ("b", .none)], [0, 1]) := by
  intro dry
  have h1 : Exports dry shared 1 (.list [.prim "x"]) [1] := .iterable rfl (.cons (ns := []) (.prim rfl) .nil)
  constructor
  · exact .dict rfl (.pub (by decide) h1 (.pub (ns' := []) (by decide) h1 (.priv (by decide) .nil)))
  · intro fuel hf
    obtain ⟨f, rfl⟩ := Nat.exists_eq_add_of_le' hf
    simp [massage, massageDict, massageList, shared, isPrivate]

/-- An object with a public and a private attribute, and a resource. -/
def exported : MHeap
  | 0 => .dict [(.str "res", 1), (.str "n", 3)]
  | 1 => .resource 2
  | 2 => .dict [(.str "name", 4), (.str "_childResources", 5)]
  | 3 => .object 6
  | 4 => .output
  | 5 => .iterable [1]
  | 6 => .dict []
  | _ => .prim "x"

/-- Non-vacuity of `massage_faithful_partial`: exporting a resource (whose private state refers back to it) and an object. -/
example : ∃ ns, Exports true exported 0 (.dict [("res", .dict [("name", .applied 4), ("@isPulumiResource", .true)]), ("n", .dict [])]) ns ∧
    ns.Nodup :=
  ⟨[0, 1, 2, 4, 3, 6], .dict rfl (.pub (ns := [1, 2, 4]) (ns' := [3, 6]) (by decide)
      (.resource (rs := [("name", .applied 4)]) rfl (.dict rfl (.pub (ns := [4]) (ns' := []) (by decide) (.output rfl) (.priv (by decide) .nil))))
      (.pub (ns := [3, 6]) (ns' := []) (by decide) (.object rfl (.dict rfl .nil)) .nil)), by decide⟩

/-- Non-vacuity of `massage_total`: that graph is finite (it has a cycle through the private state). -/
example : MFinite exported 0 := by
  refine ⟨[0, 1, 2, 3, 4, 5, 6], ?_⟩
  have : ∀ a b, MReaches exported a b → a ∈ [0, 1, 2, 3, 4, 5, 6] → b ∈ [0, 1, 2, 3, 4, 5, 6] := by
    intro a b hr
    induction hr with
    | refl => exact id
    | step m _ ih =>
      intro ha
      refine ih ?_
      simp at ha
      rcases ha with rfl | rfl | rfl | rfl | rfl | rfl | rfl <;> simp [exported, MObj.below] at m <;> try (subst m; simp)
      all_goals (rcases m with rfl | rfl <;> simp)
  intro b hb
  exact this 0 b hb (by simp)

end Pulumi.Graph
