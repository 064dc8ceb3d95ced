import Verif.DepGraph.Decide
/-!
# Dependents, and the order of deletions
-/
namespace Pulumi.DepGraph
open Pulumi.Snapshot (State Provider Ref Env Intact Backed)

/-! ## Examples -/

/-- A custom resource without properties. -/
def plain (urn : String) (parent : String := "") (deps : List String := []) (provider : Provider := .none) : State :=
  { type := "t", urn, custom := true, delete := false, id := "id", inputs := "", outputs := "", parent, protect := false,
    external := false, deps, provider, propDeps := [], pendingReplacement := false, aliases := [], timeouts := "",
    retainOnDelete := false, rest := "" }

/-- Providers are what has the type `p`. -/
def exampleEnv : Env := ⟨fun t => t == "p", fun _ => true⟩

def provider (urn : String) (deps : List String := []) : State := { plain urn "" deps with type := "p" }

def component (urn : String) (parent : String := "") : State := { plain urn parent with custom := false }

/-- A provider `P`, a resource `a` of it, a component `C` with a child `b` that depends on `a`, and `d`, which depends on the
component. -/
def shop : List State :=
  [provider "P", plain "a" "" [] (.ref ⟨"P", "id"⟩), component "C", plain "b" "C" ["a"], plain "d" "" ["C"]]

theorem shop_intact : Intact exampleEnv shop := by decide
theorem shop_settled : Settled shop := by decide
theorem shop_once : Once shop := by decide

/-! ## Dependents -/

/-- The search for dependents does not fail, lists every position once and in order, and finds exactly what a scan of the
rest of the list finds. -/
theorem dependents_are_scanned (rs : List State) (i : Nat) (ignore : String → Bool) (children : Bool) (hp : Parsed rs)
    (hi : i < rs.length) :
    ∃ l, dependingOn rs i ignore children = some l ∧ l.Pairwise (· < ·) ∧ ∀ j, j ∈ l ↔ Later rs ignore children i j :=
  dependingOn_spec hp hi

example : Parsed shop ∧ dependingOn shop 2 (fun _ => false) true = some [3, 4] ∧
    dependingOn shop 0 (fun u => u == "b") false = some [1] := ⟨intact_parsed shop_intact, by decide, by decide⟩

/-- In a checkpoint that is intact and lists no URN twice, the dependents that are found are exactly the resources that
depend on the given one, directly or through others. -/
theorem dependents_are_exact (E : Env) (rs : List State) (i : Nat) (h : Intact E rs) (ho : Once rs) (hi : i < rs.length) :
    ∃ l, dependingOn rs i (fun _ => false) false = some l ∧ l.Pairwise (· < ·) ∧ ∀ j, j ∈ l ↔ j ≠ i ∧ DependsOn rs j i := by
  obtain ⟨l, h1, h2, h3⟩ := dependingOn_spec (ig := fun _ => false) (ch := false) (intact_parsed h) hi
  refine ⟨l, h1, h2, fun j => ?_⟩
  rw [h3]
  constructor
  · intro hl
    have := hl.lt
    exact ⟨by omega, later_dependsOn hl⟩
  · rintro ⟨hne, hd⟩
    exact dependsOn_later h ho hd hne

example : Intact exampleEnv shop ∧ Once shop ∧ dependingOn shop 0 (fun _ => false) false = some [1, 3] :=
  ⟨shop_intact, shop_once, by decide⟩

/-- Whoever is found comes after whoever it depends on: the dependents are in an order in which they can be created. -/
theorem dependents_are_in_order (E : Env) (rs : List State) (i a b : Nat) (l : List Nat) (h : Intact E rs) (ho : Once rs)
    (hl : dependingOn rs i (fun _ => false) false = some l) (n m : Nat) (ha : l[n]? = some a) (hb : l[m]? = some b)
    (hab : a ≠ b) (hd : DependsOn rs a b) : m < n := by
  have hi : i < rs.length := by
    unfold dependingOn at hl
    refine Classical.byContradiction fun hc => ?_
    rw [List.getElem?_eq_none (by omega)] at hl; cases hl
  obtain ⟨l', h1, h2, _⟩ := dependents_are_exact E rs i h ho hi
  rw [hl] at h1; cases h1
  have hle := dependsOn_le h ho hd
  obtain ⟨hn, rfl⟩ := List.getElem?_eq_some_iff.1 ha
  obtain ⟨hm, rfl⟩ := List.getElem?_eq_some_iff.1 hb
  rw [List.pairwise_iff_getElem] at h2
  refine Classical.byContradiction fun hc => ?_
  rcases Nat.lt_or_eq_of_le (Nat.le_of_not_lt hc) with h | h
  · have := h2 n m hn hm h; omega
  · subst h; exact hab rfl

example : ([1, 3] : List Nat)[1]? = some 3 ∧ ([1, 3] : List Nat)[0]? = some 1 ∧ DependsOn shop 3 1 :=
  ⟨rfl, rfl, .direct ⟨plain "b" "C" ["a"], plain "a" "" [] (.ref ⟨"P", "id"⟩), rfl, rfl, .inl (by decide)⟩⟩

/-! ## The order of deletions -/

theorem dep_direct {rs : List State} {g a b} (hp : Parsed rs) (hlt : b < a)
    (h : Refers rs a b ∨ ∃ s t, rs[a]? = some s ∧ rs[b]? = some t ∧ t.urn = s.parent) : Dep rs g a b := by
  have key : ∀ s t, rs[a]? = some s → rs[b]? = some t → Names s t.urn ∨ t.urn = s.parent → Dep rs g a b := by
    intro s t hs ht hor
    obtain ⟨urns, hu, hus⟩ := dependentUrns_spec (s := s) (fun m => hp _ (List.mem_of_getElem? hs) m)
    refine ⟨_, by unfold dependenciesOf; rw [hs]; simp only; rw [hu], ?_⟩
    refine List.mem_flatMap.2 ⟨b, by simpa using hlt, ?_⟩
    rw [ht]
    simp only [dependenciesAt, List.mem_append]
    rcases hor with hn | hn
    · left; rw [if_pos ((hus _).2 hn)]; exact List.mem_cons_self
    · right; rw [if_pos hn]; exact List.mem_singleton.2 rfl
  rcases h with ⟨s, t, hs, ht, hn⟩ | ⟨s, t, hs, ht, hn⟩
  · exact key s t hs ht (Or.inl hn)
  · exact key s t hs ht (Or.inr hn)

/-- Deletions that may run in parallel are put into batches, one after the other. Whatever the order in which the condemned
are walked, the scheduling ends, every deletion is in exactly one batch, no batch is empty, and whoever names a resource
listed before it, or is its child, is deleted in an earlier batch. -/
theorem batches_respect_dependencies (rs : List State) (g : List (List String)) (order : List Nat → List Nat)
    (steps : List Nat) (hp : Parsed rs) (hord : Reorders order) (hnd : steps.Nodup) (hin : ∀ i ∈ steps, i < rs.length) :
    ∃ out, scheduleDeletes rs g order true steps = some out ∧ out.flatten.Perm steps ∧ (∀ b ∈ out, b ≠ []) ∧
      ∀ a b n m, InBatch out n a → InBatch out m b → b < a →
        (Refers rs a b ∨ ∃ s t, rs[a]? = some s ∧ rs[b]? = some t ∧ t.urn = s.parent) → n < m := by
  obtain ⟨out, h1, h2⟩ := rounds_spec (rs := rs) (g := g) hord steps.length steps (Nat.le_refl _) hnd
    (fun i hi => dependenciesOf_some hp (hin i hi))
  refine ⟨out.reverse, by unfold scheduleDeletes; rw [if_pos rfl, h1]; rfl, ?_, ?_, ?_⟩
  · exact (List.Perm.flatten (List.reverse_perm out)).trans h2.all
  · intro b hb; exact h2.nonempty b (List.mem_reverse.1 hb)
  · intro a b n m ha hb hlt hr
    rw [inBatch_reverse] at ha hb
    have := h2.ordered a b _ _ ha.2 hb.2 (dep_direct hp hlt hr)
    omega

example : Reorders List.reverse ∧ (newGraph shop).bind (fun g => scheduleDeletes shop g id true [4, 3, 2, 1, 0]) =
    some [[4], [3], [1], [2, 0]] := ⟨fun l => List.reverse_perm l, by decide +kernel⟩

/-- In a checkpoint that is intact and lists no URN twice, the graph can be built, and the batches go exactly by who needs
whom: whoever needs a condemned resource is deleted in an earlier batch, and a batch is no later than it has to be: each of
its deletions, but for the first batch's, waits for one of the batch before. -/
theorem batches_are_exact (E : Env) (rs : List State) (order : List Nat → List Nat) (steps : List Nat) (h : Intact E rs)
    (ho : Once rs) (hord : Reorders order) (hnd : steps.Nodup) (hin : ∀ i ∈ steps, i < rs.length) :
    ∃ g out, newGraph rs = some g ∧ scheduleDeletes rs g order true steps = some out ∧ out.flatten.Perm steps ∧
      (∀ a b n m, InBatch out n a → InBatch out m b → Needs rs a b → n < m) ∧
      ∀ a n, InBatch out n a → n + 1 < out.length → ∃ b, InBatch out (n + 1) b ∧ Needs rs a b := by
  obtain ⟨g, hg, _⟩ := newGraph_spec h ho
  obtain ⟨out, h1, h2⟩ := rounds_spec (rs := rs) (g := g) hord steps.length steps (Nat.le_refl _) hnd
    (fun i hi => dependenciesOf_some (intact_parsed h) (hin i hi))
  have hdep : ∀ a b, a < rs.length → (Dep rs g a b ↔ Needs rs a b) := by
    intro a b ha
    obtain ⟨l, hl, hls⟩ := dependenciesOf_spec h ho hg ha
    rw [← hls b]
    constructor
    · rintro ⟨l', hl', hb⟩; rw [hl] at hl'; cases hl'; exact hb
    · intro hb; exact ⟨l, hl, hb⟩
  have hlt : ∀ {n a}, InBatch out n a → a < rs.length := fun hb => hin _ (h2.all.mem_iff.1 (inBatch_mem hb))
  refine ⟨g, out.reverse, hg, by unfold scheduleDeletes; rw [if_pos rfl, h1]; rfl, ?_, ?_, ?_⟩
  · exact (List.Perm.flatten (List.reverse_perm out)).trans h2.all
  · intro a b n m ha hb hr
    rw [inBatch_reverse] at ha hb
    have := h2.ordered a b _ _ ha.2 hb.2 ((hdep a b (hlt ha.2)).2 hr)
    omega
  · intro a n ha hn
    rw [inBatch_reverse] at ha
    rw [List.length_reverse] at hn
    obtain ⟨b, hb, hd⟩ := h2.tight a (out.length - 1 - (n + 1)) (by
      have : out.length - 1 - (n + 1) + 1 = out.length - 1 - n := by omega
      rw [this]; exact ha.2)
    exact ⟨b, inBatch_reverse.2 ⟨hn, hb⟩, (hdep a b (hlt ha.2)).1 hd⟩

example : ∃ g out, newGraph shop = some g ∧ scheduleDeletes shop g List.reverse true [4, 3, 1] = some out ∧
    out = [[4], [3], [1]] := ⟨_, _, rfl, rfl, by decide +kernel⟩

/-- Without trust in the dependencies every deletion is a batch of its own, in the order in which they were generated. -/
theorem untrusted_deletes_are_serial (rs : List State) (g : List (List String)) (order : List Nat → List Nat)
    (steps : List Nat) : scheduleDeletes rs g order false steps = some (steps.map (fun i => [i])) := rfl

example : scheduleDeletes shop [] id false [4, 3, 1] = some [[4], [3], [1]] := by decide

theorem deletions_pairwise (seen : Seen) (rs : List State) : ((deletions seen rs).map (·.pos)).Pairwise (· > ·) := by
  unfold deletions
  rw [List.pairwise_map, List.pairwise_filterMap]
  have hr : (List.range rs.length).reverse.Pairwise (· > ·) := by
    rw [List.pairwise_reverse]; exact List.pairwise_lt_range
  refine hr.imp ?_
  intro a b hab x hx y hy
  have hpos : ∀ (i : Nat) (d : Deletion), (match rs[i]? with | none => none | some s => deletionOf seen i s) = some d →
      d.pos = i := by
    intro i d hd
    cases hs : rs[i]? with
    | none => rw [hs] at hd; cases hd
    | some s =>
      rw [hs] at hd
      simp only [deletionOf] at hd
      split at hd
      · split at hd
        · cases hd
        · cases hd; rfl
      · split at hd
        · cases hd
        · split at hd <;> (cases hd; rfl)
  rw [hpos a x hx, hpos b y hy]
  exact hab

/-- Deletions are generated from the end of the checkpoint to its beginning, each state at most once. Where everything a
resource refers to is listed before it, whoever needs a resource is therefore deleted before it. -/
theorem deletions_go_backwards (seen : Seen) (rs : List State) (a b n m : Nat)
    (ha : ((deletions seen rs).map (·.pos))[n]? = some a) (hb : ((deletions seen rs).map (·.pos))[m]? = some b)
    (hlt : b < a) : n < m := by
  have hp := deletions_pairwise seen rs
  rw [List.pairwise_iff_getElem] at hp
  obtain ⟨hn, rfl⟩ := List.getElem?_eq_some_iff.1 ha
  obtain ⟨hm, rfl⟩ := List.getElem?_eq_some_iff.1 hb
  refine Classical.byContradiction fun hc => ?_
  rcases Nat.lt_or_eq_of_le (Nat.le_of_not_lt hc) with h | h
  · have := hp m n hm hn h; omega
  · subst h; omega

example : (deletions ⟨["P"], [], [], [], [], [], []⟩ shop).map (·.pos) = [4, 3, 2, 1] := by decide

/-- A serial run of the deletions of an intact checkpoint without repeated URNs deletes whoever depends on a resource, or is
its child, before the resource. -/
theorem serial_deletes_respect_dependencies (E : Env) (seen : Seen) (rs : List State) (a b n m : Nat) (h : Intact E rs)
    (ho : Once rs) (ha : ((deletions seen rs).map (·.pos))[n]? = some a)
    (hb : ((deletions seen rs).map (·.pos))[m]? = some b) (hab : a ≠ b) (hd : DependsOn rs a b ∨ ChildOf rs a b) : n < m := by
  refine deletions_go_backwards seen rs a b n m ha hb ?_
  rcases hd with hd | ⟨s, t, hs, ht, hp, hne⟩
  · have := dependsOn_le h ho hd; omega
  · rcases (backed_at h hs).parent with h1 | ⟨x, hx, e⟩
    · exact absurd (hp.symm.trans h1) hne
    · obtain ⟨c, hc, hcx⟩ := take_mem hx
      have := once_inj ho hcx ht (by rw [e, hp])
      omega

example : ChildOf shop 3 2 :=
  ⟨plain "b" "C" ["a"], component "C", rfl, rfl, by decide, by decide⟩

theorem mem_deletions (seen : Seen) (rs : List State) (d : Deletion) : d ∈ deletions seen rs ↔ Dropped seen rs d := by
  have hmem : d ∈ deletions seen rs ↔ ∃ j s, rs[j]? = some s ∧ deletionOf seen j s = some d := by
    unfold deletions
    rw [List.mem_filterMap]
    constructor
    · rintro ⟨j, _, hj⟩
      cases hs : rs[j]? with
      | none => rw [hs] at hj; cases hj
      | some s => rw [hs] at hj; exact ⟨j, s, hs, hj⟩
    · rintro ⟨j, s, hs, hj⟩
      refine ⟨j, ?_, by rw [hs]; exact hj⟩
      rw [List.mem_reverse, List.mem_range]
      exact (List.getElem?_eq_some_iff.1 hs).1
  have hd : ∀ j s, deletionOf seen j s = some d ↔
      (s.delete = true ∧ j ∉ seen.pendingDeletes ∧ d = .replaced j) ∨
      (s.delete = false ∧ Unclaimed seen s.urn ∧
        ((s.pendingReplacement = true ∧ d = .removed j) ∨ (s.pendingReplacement = false ∧ d = .gone j))) := by
    intro j s
    unfold deletionOf Unclaimed
    cases s.delete <;> simp only [Bool.false_eq_true, if_false, if_true]
    · by_cases h2 : s.urn ∈ seen.sames ∨ s.urn ∈ seen.updates ∨ s.urn ∈ seen.replaces ∨ s.urn ∈ seen.reads ∨
        s.urn ∈ seen.aliased
      · rw [if_pos h2]; simp_all
      · rw [if_neg h2]
        cases s.pendingReplacement <;> simp_all <;> exact eq_comm
    · by_cases h2 : j ∈ seen.pendingDeletes
      · simp [h2]
      · simp [h2]; exact eq_comm
  rw [hmem]
  cases d with
  | replaced i =>
    constructor
    · rintro ⟨j, s, hs, hj⟩
      rw [hd] at hj
      rcases hj with ⟨h1, h2, h3⟩ | ⟨_, _, ⟨_, h3⟩ | ⟨_, h3⟩⟩ <;> cases h3
      exact ⟨s, hs, h1, h2⟩
    · rintro ⟨s, hs, h1, h2⟩
      exact ⟨i, s, hs, (hd _ _).2 (Or.inl ⟨h1, h2, rfl⟩)⟩
  | gone i =>
    constructor
    · rintro ⟨j, s, hs, hj⟩
      rw [hd] at hj
      rcases hj with ⟨h1, h2, h3⟩ | ⟨h1, h2, ⟨h4, h3⟩ | ⟨h4, h3⟩⟩ <;> cases h3
      exact ⟨s, hs, h1, h4, h2⟩
    · rintro ⟨s, hs, h1, h4, h2⟩
      exact ⟨i, s, hs, (hd _ _).2 (Or.inr ⟨h1, h2, Or.inr ⟨h4, rfl⟩⟩)⟩
  | removed i =>
    constructor
    · rintro ⟨j, s, hs, hj⟩
      rw [hd] at hj
      rcases hj with ⟨h1, h2, h3⟩ | ⟨h1, h2, ⟨h4, h3⟩ | ⟨h4, h3⟩⟩ <;> cases h3
      exact ⟨s, hs, h1, h4, h2⟩
    · rintro ⟨s, hs, h1, h4, h2⟩
      exact ⟨i, s, hs, (hd _ _).2 (Or.inr ⟨h1, h2, Or.inl ⟨h4, rfl⟩⟩)⟩

/-- Which states are deleted when there are no targets: those marked as superseded, unless that was done before the program
ran, and those the program has neither registered nor read, under their URN or as an alias. Those whose resource was
deleted before only leave the checkpoint. -/
theorem deletes_what_the_program_dropped (seen : Seen) (rs : List State) (inputs : Nat → List String) (differ : Differ)
    (targetDeps preview : Bool) :
    ∃ l, generateDeletes rs seen inputs differ targetDeps preview none = some (.deletes l false) ∧
      (l.map (·.pos)).Pairwise (· > ·) ∧ ∀ d, d ∈ l ↔ Dropped seen rs d :=
  ⟨_, rfl, deletions_pairwise seen rs, mem_deletions seen rs⟩

example : generateDeletes [plain "a", { plain "b" with pendingReplacement := true }, { plain "a" with delete := true }, plain "c"]
    ⟨["c"], [], [], [], [], [], []⟩ (fun _ => []) (fun _ _ => .ok false) false false none =
    some (.deletes [.replaced 2, .removed 1, .gone 0] false) := by decide

/-- What is marked as superseded when an update begins is deleted first, from the end of the checkpoint to its beginning. -/
theorem pending_deletes_are_exact (rs : List State) :
    (pendingDeletes rs).Pairwise (· > ·) ∧ ∀ i, i ∈ pendingDeletes rs ↔ ∃ s, rs[i]? = some s ∧ s.delete = true := by
  constructor
  · unfold pendingDeletes
    refine List.Pairwise.filter _ ?_
    rw [List.pairwise_reverse]; exact List.pairwise_lt_range
  · intro i
    unfold pendingDeletes
    rw [List.mem_filter, List.mem_reverse, List.mem_range]
    constructor
    · rintro ⟨_, hi⟩
      cases hs : rs[i]? with
      | none => rw [hs] at hi; cases hi
      | some s => rw [hs] at hi; exact ⟨s, rfl, hi⟩
    · rintro ⟨s, hs, hd⟩
      exact ⟨(List.getElem?_eq_some_iff.1 hs).1, by rw [hs]; exact hd⟩

example : pendingDeletes [{ plain "a" with delete := true }, plain "a", { plain "b" with delete := true }] = [2, 0] := by decide

end Pulumi.DepGraph
