import Verif.DepGraph.Theorems
import Verif.Snapshot.Integrity
/-!
# Deleting a resource from a checkpoint by hand
-/
namespace Pulumi.DepGraph
open Pulumi.Snapshot (State Provider Ref Env Intact Backed Provides)

theorem backed_drop {E : Env} {A B : List State} {c s : State} (h : Backed E (A ++ c :: B) s) (hd : c.urn ∉ s.deps)
    (hp : ∀ r, s.provider = .ref r → r.urn ≠ c.urn) (hpa : s.parent ≠ c.urn) : Backed E (A ++ B) s := by
  have hmem : ∀ {x}, x ∈ A ++ c :: B → x = c ∨ x ∈ A ++ B := by
    intro x hx; simp only [List.mem_append, List.mem_cons] at hx ⊢
    rcases hx with h | h | h
    · exact Or.inr (Or.inl h)
    · exact Or.inl h
    · exact Or.inr (Or.inr h)
  have hsub : ∀ {x}, x ∈ A ++ B → x ∈ A ++ c :: B := by
    intro x hx; simp only [List.mem_append, List.mem_cons] at hx ⊢
    rcases hx with h | h
    · exact Or.inl h
    · exact Or.inr (Or.inr h)
  refine ⟨h.referenceable, ?_, ?_, ?_, ?_⟩
  · rcases h.provider with h0 | ⟨r, h1, x, hx, h2⟩
    · exact Or.inl h0
    · refine Or.inr ⟨r, h1, x, ?_, h2⟩
      rw [List.mem_append, List.mem_singleton] at hx ⊢
      rcases hx with hx | hx
      · rcases hmem hx with rfl | hx
        · exact absurd h2.2.1.symm (hp r h1)
        · exact Or.inl hx
      · exact Or.inr hx
  · rcases h.parent with h0 | ⟨x, hx, e⟩
    · exact Or.inl h0
    · rcases hmem hx with rfl | hx
      · exact absurd e.symm hpa
      · exact Or.inr ⟨x, hx, e⟩
  · intro d hdd
    obtain ⟨x, hx, e⟩ := h.deps d hdd
    rcases hmem hx with rfl | hx
    · exact absurd (e ▸ hdd) hd
    · exact ⟨x, hx, e⟩
  · rcases h.unique with h0 | h0
    · exact Or.inl h0
    · exact Or.inr (fun x hx => h0 x (hsub hx))

theorem intact_erase {E : Env} {A B : List State} {c : State} (h : Intact E (A ++ c :: B))
    (hd : ∀ s ∈ B, ¬ Names s c.urn) (hpa : ∀ s ∈ B, s.parent ≠ c.urn) : Intact E (A ++ B) := by
  intro pre s post he
  rcases List.append_eq_append_iff.1 he with ⟨a', h1, h2⟩ | ⟨c', h1, h2⟩
  · -- the state comes after the erased one, or right at it
    cases a' with
    | nil =>
      simp only [List.nil_append] at h2
      have hs : s ∈ B := by rw [h2]; simp
      have hb := h (A ++ [c]) s post (by rw [h2]; simp)
      have := backed_drop (A := A) (B := []) hb (fun hx => hd s hs (Or.inl hx))
        (fun r hr e => hd s hs (Or.inr ⟨r, hr, e⟩)) (hpa s hs)
      rw [h1]; simpa using this
    | cons x a' =>
      have hs : s ∈ B := by rw [h2]; simp
      have hb := h (A ++ c :: x :: a') s post (by rw [h2]; simp)
      rw [h1]
      exact backed_drop hb (fun hx => hd s hs (Or.inl hx)) (fun r hr e => hd s hs (Or.inr ⟨r, hr, e⟩)) (hpa s hs)
  · -- the state comes before
    cases c' with
    | nil =>
      simp only [List.nil_append] at h2
      have hs : s ∈ B := by rw [← h2]; simp
      have hb := h (A ++ [c]) s post (by rw [← h2]; simp)
      have := backed_drop (A := A) (B := []) hb (fun hx => hd s hs (Or.inl hx))
        (fun r hr e => hd s hs (Or.inr ⟨r, hr, e⟩)) (hpa s hs)
      rw [h1] at this; simpa using this
    | cons x c' =>
      simp only [List.cons_append, List.cons.injEq] at h2
      obtain ⟨rfl, h2⟩ := h2
      exact h pre s (c' ++ c :: B) (by rw [h1]; simp)

theorem childPositions_nil {rs : List State} {urn : String}
    (h : (List.range rs.length).filter (fun k => decide ((rs[k]?).map (·.parent) = some urn)) = []) :
    ∀ t ∈ rs, t.parent ≠ urn := by
  intro t ht e
  obtain ⟨k, hk, rfl⟩ := List.getElem_of_mem ht
  have : k ∈ (List.range rs.length).filter (fun k => decide ((rs[k]?).map (·.parent) = some urn)) := by
    rw [List.mem_filter]
    exact ⟨by simpa using hk, by simp [List.getElem?_eq_getElem hk, e]⟩
  rw [h] at this; cases this

theorem childPositions_mem {rs : List State} {urn : String} (k : Nat) :
    k ∈ (List.range rs.length).filter (fun k => decide ((rs[k]?).map (·.parent) = some urn)) ↔
      ∃ t, rs[k]? = some t ∧ t.parent = urn := by
  rw [List.mem_filter, List.mem_range, decide_eq_true_eq, Option.map_eq_some_iff]
  constructor
  · rintro ⟨_, h⟩; exact h
  · rintro ⟨t, h, e⟩; exact ⟨(List.getElem?_eq_some_iff.1 h).1, t, h, e⟩

theorem deleteResource_ok {rs rs' : List State} {i : Nat} (h : deleteResource rs i = some (.ok rs')) :
    ∃ s, rs[i]? = some s ∧ s.protect = false ∧ rs' = rs.eraseIdx i ∧ dependingOn rs i (fun _ => false) false = some [] ∧
      ∀ t ∈ rs, t.parent ≠ s.urn := by
  unfold deleteResource at h
  cases hs : rs[i]? with
  | none => rw [hs] at h; cases h
  | some s =>
    rw [hs] at h; simp only at h
    by_cases hp : s.protect = true
    · rw [if_pos hp] at h; cases h
    · rw [if_neg hp] at h
      split at h
      · rename_i hg hd
        split at h
        · rename_i hc
          cases h
          exact ⟨s, rfl, by simpa using hp, rfl, hd, childPositions_nil hc⟩
        · cases h
      · cases h
      · cases h

/-- Deleting a resource from an intact checkpoint by hand leaves it intact, also when it lists a URN more than once: the
check that follows (`pkg/cmd/pulumi/state.go:160`) never fails. -/
theorem state_delete_keeps_intact (E : Env) (rs rs' : List State) (i : Nat) (h : Intact E rs)
    (hd : deleteResource rs i = some (.ok rs')) : Intact E rs' := by
  obtain ⟨s, hs, _, rfl, hdep, hch⟩ := deleteResource_ok hd
  obtain ⟨hi, rfl⟩ := List.getElem?_eq_some_iff.1 hs
  obtain ⟨l, h1, _, h3⟩ := dependingOn_spec (ig := fun _ => false) (ch := false) (intact_parsed h) hi
  rw [hdep] at h1; cases h1
  rw [List.eraseIdx_eq_take_drop_succ]
  refine intact_erase (c := rs[i]) (by simpa using h) ?_ ?_
  · intro t ht hn
    obtain ⟨k, hk, e⟩ := List.getElem_of_mem ht
    rw [List.getElem_drop] at e
    rw [List.length_drop] at hk
    have hget : rs[i + 1 + k]? = some t := by rw [← e]; exact List.getElem?_eq_getElem _
    exact absurd ((h3 (i + 1 + k)).2 (.direct (by omega) hget rfl ⟨t, rs[i], hget, hs, hn⟩)) (by simp)
  · intro t ht; exact hch t (List.mem_of_mem_drop ht)

example : ∃ rs', deleteResource shop 4 = some (.ok rs') ∧ rs'.length = 4 := ⟨_, rfl, rfl⟩

/-- Deleting a resource by hand: a protected resource stays, and so does one that others depend on, which are then all
listed, or else one with children, which are then all listed. Nothing else stands in the way, and nothing but the resource
leaves the checkpoint. -/
theorem state_delete_is_exact (E : Env) (rs : List State) (i : Nat) (s : State) (h : Intact E rs) (ho : Once rs)
    (hs : rs[i]? = some s) :
    ∃ r, deleteResource rs i = some r ∧
      match r with
      | .error .isProtected => s.protect = true
      | .error (.hasDependents l) => s.protect = false ∧ l ≠ [] ∧
          ((∀ j, j ∈ l ↔ j ≠ i ∧ DependsOn rs j i) ∨
           ((∀ j, j ≠ i → ¬ DependsOn rs j i) ∧ ∀ j, j ∈ l ↔ ∃ t, rs[j]? = some t ∧ t.parent = s.urn))
      | .ok rs' => s.protect = false ∧ rs' = rs.eraseIdx i ∧ (∀ j, j ≠ i → ¬ DependsOn rs j i) ∧
          ∀ t ∈ rs, t.parent ≠ s.urn := by
  obtain ⟨hi, rfl⟩ := List.getElem?_eq_some_iff.1 hs
  obtain ⟨g, hg, _⟩ := newGraph_spec h ho
  obtain ⟨l, h1, _, h3⟩ := dependents_are_exact E rs i h ho hi
  unfold deleteResource
  rw [hs]; simp only
  by_cases hp : rs[i].protect = true
  · rw [if_pos hp]; exact ⟨_, rfl, hp⟩
  rw [if_neg hp, hg, h1]
  have hp' : rs[i].protect = false := by simpa using hp
  cases l with
  | cons x l => exact ⟨_, rfl, hp', by simp, Or.inl h3⟩
  | nil =>
    have hnone : ∀ j, j ≠ i → ¬ DependsOn rs j i := fun j hj hd => absurd ((h3 j).2 ⟨hj, hd⟩) (by simp)
    simp only
    split
    · rename_i hc
      exact ⟨_, rfl, hp', rfl, hnone, childPositions_nil hc⟩
    · rename_i cs hc
      refine ⟨_, rfl, hp', hc, Or.inr ⟨hnone, fun j => ?_⟩⟩
      exact childPositions_mem j

example : deleteResource shop 0 = some (.error (.hasDependents [1, 3])) ∧
    deleteResource (shop.map (fun s => { s with protect := true })) 4 = some (.error .isProtected) ∧
    deleteResource (shop.take 4) 2 = some (.error (.hasDependents [3])) := by decide

/-- A URN that is given on the command line finds the resource only if exactly one has it. -/
theorem locate_is_exact (rs : List State) (urn : String) :
    (locate rs urn = .missing ↔ ∀ s ∈ rs, s.urn ≠ urn) ∧
    ∀ i, locate rs urn = .found i ↔
      (∃ s, rs[i]? = some s ∧ s.urn = urn) ∧ ∀ j s, rs[j]? = some s → s.urn = urn → j = i := by
  have hmem : ∀ i, i ∈ locateResource rs urn ↔ ∃ s, rs[i]? = some s ∧ s.urn = urn := by
    intro i
    unfold locateResource
    rw [List.mem_filter, List.mem_range, decide_eq_true_eq, Option.map_eq_some_iff]
    constructor
    · rintro ⟨_, h⟩; exact h
    · rintro ⟨t, h, e⟩; exact ⟨(List.getElem?_eq_some_iff.1 h).1, t, h, e⟩
  have hnd : (locateResource rs urn).Nodup := List.nodup_range.filter _
  unfold locate
  constructor
  · constructor
    · intro h s hs e
      obtain ⟨k, hk, rfl⟩ := List.getElem_of_mem hs
      have := (hmem k).2 ⟨_, List.getElem?_eq_getElem hk, e⟩
      split at h
      · rename_i hl; rw [hl] at this; cases this
      · cases h
      · cases h
    · intro h
      have : locateResource rs urn = [] := by
        rw [List.eq_nil_iff_forall_not_mem]
        intro k hk
        obtain ⟨s, hs, e⟩ := (hmem k).1 hk
        exact h s (List.mem_of_getElem? hs) e
      rw [this]
  · intro i
    constructor
    · intro h
      split at h
      · cases h
      · rename_i j hl
        cases h
        rw [hl] at hmem
        refine ⟨(hmem i).1 (by simp), fun j s hj e => ?_⟩
        simpa using (hmem j).2 ⟨s, hj, e⟩
      · cases h
    · rintro ⟨h1, h2⟩
      have hi := (hmem i).2 h1
      have hall : ∀ j ∈ locateResource rs urn, j = i := by
        intro j hj
        obtain ⟨s, hs, e⟩ := (hmem j).1 hj
        exact h2 j s hs e
      have : locateResource rs urn = [i] := by
        cases hl : locateResource rs urn with
        | nil => rw [hl] at hi; cases hi
        | cons x l =>
          rw [hl] at hall hnd
          have hx := hall x (by simp)
          subst hx
          cases l with
          | nil => rfl
          | cons y l =>
            have := hall y (by simp)
            subst this
            simp at hnd
      rw [this]

example : locate shop "b" = .found 3 ∧ locate shop "x" = .missing ∧
    locate [plain "a", { plain "a" with delete := true }] "a" = .ambiguous [0, 1] := by decide

/-- Lifting the protection of resources by hand leaves an intact checkpoint intact. -/
theorem unprotect_keeps_intact (E : Env) (rs : List State) (which : State → Bool) (h : Intact E rs) :
    Intact E (rs.map (fun s => if which s then { s with protect := false } else s)) := by
  rw [Snapshot.intact_iff] at h ⊢
  have := Snapshot.intact_core (E := E) (f := fun s => s)
    (g := fun s : State => if which s then { s with protect := false } else s) (l := rs) (b := [])
    (fun x _ => by cases which x <;> exact ⟨rfl, rfl, rfl, rfl, rfl, rfl⟩)
    (fun x _ hd => by cases which x <;> exact hd) (by simpa using h)
  simpa using this

example : Intact exampleEnv (shop.map (fun s => if s.urn == "a" then { s with protect := false } else s)) := by decide

end Pulumi.DepGraph
