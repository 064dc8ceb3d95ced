import Verif.Rename.Rewrite
namespace Pulumi.Rename
open Pulumi.Urn
open Pulumi.Snapshot (State Provider Ref Env Snap OpType Intact Backed Provides)

/-- The replacement keeps the URNs of the list apart, and providers referenceable. -/
structure Faithful (E : Env) (f : String → String) (rs : List State) : Prop where
  inj : ∀ s ∈ rs, ∀ t ∈ rs, ∀ u v, Mentions s u → Mentions t v → f u = f v → u = v
  named : ∀ s ∈ rs, ∀ u, Mentions s u → (f u = "" ↔ u = "")
  valid : ∀ s ∈ rs, E.isProviderType s.type = true → E.validProviderUrn s.urn = true → E.validProviderUrn (f s.urn) = true

theorem mentions_urn (s : State) : Mentions s s.urn := .inl rfl

theorem relabel_parent {f : String → String} {s : State} (h : s.parent ≠ "") : (relabel f s).parent = f s.parent := by
  simp [relabel, h]

theorem relabel_provider {f : String → String} {s : State} {r' : Ref} :
    (relabel f s).provider = .ref r' ↔ ∃ r, s.provider = .ref r ∧ r' = ⟨f r.urn, r.id⟩ := by
  simp only [relabel]
  cases h : s.provider with
  | none => simp
  | malformed m => simp
  | ref r => simp [eq_comm (a := r')]

theorem relabel_names {f : String → String} {rs : List State} {E : Env} (hf : Faithful E f rs) {s t : State} (hs : s ∈ rs)
    (ht : t ∈ rs) : DepGraph.Names (relabel f s) (f t.urn) ↔ DepGraph.Names s t.urn := by
  unfold DepGraph.Names
  constructor
  · rintro (h | ⟨r', hr', h⟩)
    · simp only [relabel, List.mem_map] at h
      obtain ⟨u, hu, he⟩ := h
      have := hf.inj s hs t ht u t.urn (.inr (.inr (.inl hu))) (mentions_urn t) he
      exact .inl (this ▸ hu)
    · obtain ⟨r, hr, rfl⟩ := relabel_provider.1 hr'
      exact .inr ⟨r, hr, hf.inj s hs t ht r.urn t.urn (.inr (.inr (.inr (.inr ⟨r, hr, rfl⟩)))) (mentions_urn t) h⟩
  · rintro (h | ⟨r, hr, h⟩)
    · exact .inl (List.mem_map_of_mem h)
    · exact .inr ⟨_, relabel_provider.2 ⟨r, hr, rfl⟩, by rw [h]⟩

theorem relabel_child {f : String → String} {rs : List State} {E : Env} (hf : Faithful E f rs) {s t : State} (hs : s ∈ rs)
    (ht : t ∈ rs) : (relabel f s).parent = f t.urn ↔ s.parent = t.urn := by
  by_cases he : s.parent = ""
  · have h1 : (relabel f s).parent = "" := by simp [relabel, he]
    rw [h1, he]
    have := hf.named t ht t.urn (mentions_urn t)
    exact ⟨fun h => (this.1 h.symm).symm, fun h => (this.2 h.symm).symm⟩
  · rw [relabel_parent he]
    exact ⟨fun h => hf.inj s hs t ht _ _ (.inr (.inl ⟨rfl, he⟩)) (mentions_urn t) h, fun h => by rw [h]⟩

theorem relabel_sameReferences {f : String → String} {rs : List State} {E : Env} (hf : Faithful E f rs) :
    SameReferences rs (rs.map (relabel f)) := by
  refine ⟨by simp, fun i j => ⟨?_, ?_⟩⟩
  · unfold DepGraph.Refers
    simp only [List.getElem?_map, Option.map_eq_some_iff]
    constructor
    · rintro ⟨_, _, ⟨s, hs, rfl⟩, ⟨t, ht, rfl⟩, h⟩
      exact ⟨s, t, hs, ht, (relabel_names hf (List.mem_of_getElem? hs) (List.mem_of_getElem? ht)).1 h⟩
    · rintro ⟨s, t, hs, ht, h⟩
      exact ⟨_, _, ⟨s, hs, rfl⟩, ⟨t, ht, rfl⟩, (relabel_names hf (List.mem_of_getElem? hs) (List.mem_of_getElem? ht)).2 h⟩
  · unfold DepGraph.ChildOf
    simp only [List.getElem?_map, Option.map_eq_some_iff]
    constructor
    · rintro ⟨_, _, ⟨s, hs, rfl⟩, ⟨t, ht, rfl⟩, h, hn⟩
      exact ⟨s, t, hs, ht, (relabel_child hf (List.mem_of_getElem? hs) (List.mem_of_getElem? ht)).1 h,
        fun e => hn ((hf.named t (List.mem_of_getElem? ht) _ (mentions_urn t)).2 e)⟩
    · rintro ⟨s, t, hs, ht, h, hn⟩
      exact ⟨_, _, ⟨s, hs, rfl⟩, ⟨t, ht, rfl⟩, (relabel_child hf (List.mem_of_getElem? hs) (List.mem_of_getElem? ht)).2 h,
        fun e => hn ((hf.named t (List.mem_of_getElem? ht) _ (mentions_urn t)).1 e)⟩

theorem relabel_provides {f : String → String} {E : Env} {x : State} {r : Ref} (h : Provides E x r) :
    Provides E (relabel f x) ⟨f r.urn, r.id⟩ := ⟨h.1, by simp [relabel, h.2.1], h.2.2⟩

theorem relabel_intact {f : String → String} {rs : List State} {E : Env} (hf : Faithful E f rs) (h : Intact E rs) :
    Intact E (rs.map (relabel f)) := by
  intro pre' s' post' he
  obtain ⟨pre, rest, rfl, rfl, h2⟩ := List.map_eq_append_iff.1 he
  obtain ⟨s, post, rfl, rfl, rfl⟩ := List.map_eq_cons_iff.1 h2
  have hb := h pre s post rfl
  have hs : s ∈ pre ++ s :: post := by simp
  have hpre : ∀ x ∈ pre, x ∈ pre ++ s :: post := fun x hx => by simp [hx]
  refine ⟨fun hp => hf.valid s hs hp (hb.referenceable hp), ?_, ?_, ?_, ?_⟩
  · rcases hb.provider with hp | ⟨r, hr, x, hx, hxr⟩
    · left; simp [relabel, hp]
    · refine .inr ⟨_, relabel_provider.2 ⟨r, hr, rfl⟩, relabel f x, ?_, relabel_provides hxr⟩
      rw [show List.map (relabel f) pre ++ [relabel f s] = (pre ++ [s]).map (relabel f) by simp]
      exact List.mem_map_of_mem hx
  · by_cases hp : s.parent = ""
    · left; simp [relabel, hp]
    · rcases hb.parent with hh | ⟨x, hx, hxe⟩
      · exact absurd hh hp
      · exact .inr ⟨relabel f x, List.mem_map_of_mem hx, by rw [relabel_parent hp, ← hxe]; rfl⟩
  · intro d hd
    simp only [relabel, List.mem_map] at hd
    obtain ⟨d0, hd0, rfl⟩ := hd
    obtain ⟨x, hx, rfl⟩ := hb.deps d0 hd0
    exact ⟨relabel f x, List.mem_map_of_mem hx, rfl⟩
  · rcases hb.unique with hd | hu
    · exact .inl hd
    · right
      intro x' hx' he
      obtain ⟨x, hx, rfl⟩ := List.mem_map.1 hx'
      exact hu x hx (hf.inj x (hpre x hx) s hs _ _ (mentions_urn x) (mentions_urn s) he)

/-! ## Dependencies of properties do not matter here -/

def strip (s : State) : State := { s with propDeps := [] }

theorem strip_verifyFrom (E : Env) : ∀ (l : List State) (urns : List String) (provs : List Ref),
    Snapshot.verifyFrom E urns provs (l.map strip) = Snapshot.verifyFrom E urns provs l := by
  intro l
  induction l with
  | nil => intro _ _; rfl
  | cons s l ih =>
    intro urns provs
    simp only [List.map_cons, Snapshot.verifyFrom]
    have h1 : Snapshot.addProvider E (strip s) provs = Snapshot.addProvider E s provs := rfl
    have ha : ∀ u, (l.map strip).any (fun o => decide (o.urn = u)) = l.any (fun o => decide (o.urn = u)) := by
      intro u; rw [List.any_map]; rfl
    have h2 : ∀ u, Snapshot.checkParent urns (l.map strip) u = Snapshot.checkParent urns l u := by
      intro u; simp only [Snapshot.checkParent, ha]
    have h3 : ∀ ds, Snapshot.checkDeps urns (l.map strip) ds = Snapshot.checkDeps urns l ds := by
      intro ds
      induction ds with
      | nil => rfl
      | cons d ds ihd => simp only [Snapshot.checkDeps, ha, ihd]
    have h4 : Snapshot.checkUrn urns (strip s) = Snapshot.checkUrn urns s := rfl
    rw [h1, h2, h3, h4]
    simp only [ih]
    rfl

theorem strip_intact {E : Env} {rs : List State} : Intact E (rs.map strip) ↔ Intact E rs := by
  have h1 := Snapshot.verify_iff_intact E ⟨rs, []⟩
  have h2 := Snapshot.verify_iff_intact E ⟨rs.map strip, []⟩
  unfold Snapshot.verify at h1 h2
  simp only at h1 h2
  rw [← h1, ← h2, strip_verifyFrom]

theorem strip_sameReferences {rs rs' : List State} (h : SameReferences (rs.map strip) (rs'.map strip)) :
    SameReferences rs rs' := by
  obtain ⟨hl, h⟩ := h
  have hr : ∀ (l : List State) (i j : Nat), DepGraph.Refers (l.map strip) i j ↔ DepGraph.Refers l i j := by
    intro l i j
    unfold DepGraph.Refers
    simp only [List.getElem?_map, Option.map_eq_some_iff]
    constructor
    · rintro ⟨_, _, ⟨s, hs, rfl⟩, ⟨t, ht, rfl⟩, h⟩; exact ⟨s, t, hs, ht, h⟩
    · rintro ⟨s, t, hs, ht, h⟩; exact ⟨_, _, ⟨s, hs, rfl⟩, ⟨t, ht, rfl⟩, h⟩
  have hc : ∀ (l : List State) (i j : Nat), DepGraph.ChildOf (l.map strip) i j ↔ DepGraph.ChildOf l i j := by
    intro l i j
    unfold DepGraph.ChildOf
    simp only [List.getElem?_map, Option.map_eq_some_iff]
    constructor
    · rintro ⟨_, _, ⟨s, hs, rfl⟩, ⟨t, ht, rfl⟩, h⟩; exact ⟨s, t, hs, ht, h⟩
    · rintro ⟨s, t, hs, ht, h⟩; exact ⟨_, _, ⟨s, hs, rfl⟩, ⟨t, ht, rfl⟩, h⟩
  refine ⟨by simpa using hl, fun i j => ?_⟩
  rw [← hr rs', ← hr rs, ← hc rs', ← hc rs]
  exact h i j

end Pulumi.Rename
