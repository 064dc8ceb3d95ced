import Verif.DepGraph.Edit
/-!
# Deletions of targets
-/
namespace Pulumi.DepGraph
open Pulumi.Snapshot (State Provider Ref Env Intact Backed Provides)

theorem settled_once {E} {rs : List State} (h : Intact E rs) (hs : Settled rs) : Once rs := by
  unfold Once List.Nodup
  rw [List.pairwise_iff_getElem]
  intro i j hi hj hij e
  rw [List.length_map] at hi hj
  rw [List.getElem_map, List.getElem_map] at e
  rcases (backed_at h (List.getElem?_eq_getElem hj)).unique with hd | hu
  · rw [hs.live _ (List.getElem_mem _)] at hd; cases hd
  · exact hu rs[i] (List.mem_take_iff_getElem.2 ⟨i, by omega, rfl⟩) e

theorem parent_before {E} {rs : List State} (h : Intact E rs) (ho : Once rs) {j k : Nat} {s t : State} (hj : rs[j]? = some s)
    (hk : rs[k]? = some t) (hp : s.parent = t.urn) (hne : t.urn ≠ "") : k < j := by
  rcases (backed_at h hj).parent with h1 | ⟨x, hx, e⟩
  · exact absurd (hp.symm.trans h1) hne
  · obtain ⟨c, hc, hcx⟩ := take_mem hx
    have := once_inj ho hcx hk (by rw [e, hp])
    omega

theorem later_implicated {rs ig ch i j ts} (h : Later rs ig ch i j) (hi : Implicated rs ts i) : Implicated rs ts j := by
  induction h with
  | child _ h1 h2 _ _ h3 => exact .child h1 h2 h3 hi
  | direct _ _ _ h => exact .dependent h hi
  | through _ _ _ _ h ih => exact .dependent h ih

theorem increasing_length : ∀ (l : List Nat) (lo hi : Nat), l.Pairwise (· < ·) → (∀ x ∈ l, lo ≤ x ∧ x < hi) →
    l.length ≤ hi - lo := by
  intro l
  induction l with
  | nil => intros; simp
  | cons x l ih =>
    intro lo hi hp hb
    rw [List.pairwise_cons] at hp
    have hx := hb x (by simp)
    have := ih (x + 1) hi hp.2 (fun y hy => ⟨hp.1 y hy, (hb y (by simp [hy])).2⟩)
    simp only [List.length_cons]
    omega

/-- How many states have a URN that is not among the targets yet. -/
def unexplored (rs : List State) (ts : List String) : Nat := (rs.filter (fun s => decide (s.urn ∉ ts))).length

theorem unexplored_lt {rs : List State} {s : State} {ts : List String} (hs : s ∈ rs) (hn : s.urn ∉ ts) :
    unexplored rs (s.urn :: ts) < unexplored rs ts := by
  unfold unexplored
  induction rs with
  | nil => cases hs
  | cons x rs ih =>
    have hmono : ∀ (l : List State), (l.filter (fun y => decide (y.urn ∉ s.urn :: ts))).length ≤
        (l.filter (fun y => decide (y.urn ∉ ts))).length := by
      intro l
      rw [← List.countP_eq_length_filter, ← List.countP_eq_length_filter]
      refine List.countP_mono_left ?_
      intro a _ ha
      simp only [List.mem_cons, not_or, decide_eq_true_eq] at ha ⊢
      exact ha.2
    rcases List.mem_cons.1 hs with rfl | hs
    · have := hmono rs
      rw [List.filter_cons_of_neg (by simp), List.filter_cons_of_pos (by simpa using hn), List.length_cons]
      omega
    · have := ih hs
      by_cases h1 : x.urn ∈ ts
      · rw [List.filter_cons_of_neg (by simp [h1]), List.filter_cons_of_neg (by simp [h1])]; exact this
      · by_cases h2 : x.urn = s.urn
        · rw [List.filter_cons_of_neg (by simp [h2]), List.filter_cons_of_pos (by simpa using h1), List.length_cons]
          omega
        · rw [List.filter_cons_of_pos (by simp [h1, h2]), List.filter_cons_of_pos (by simpa using h1)]
          simp only [List.length_cons]; omega

/-- What the exploration keeps true. -/
structure Exploring (rs : List State) (targets : List String) (frontier : List Nat) (ts : List String) : Prop where
  ahead : ∀ i ∈ frontier, i < rs.length ∧ Implicated rs targets i
  sound : ∀ u ∈ ts, ∃ (k : Nat) (t : State), rs[k]? = some t ∧ t.urn = u ∧ Implicated rs targets k
  closed : ∀ (k : Nat) (t : State), rs[k]? = some t → t.urn ∈ ts → ∀ (j : Nat) (s : State), rs[j]? = some s →
    (Names s t.urn ∨ s.parent = t.urn) → s.urn ∈ ts ∨ j ∈ frontier
  asked : ∀ (j : Nat) (s : State), rs[j]? = some s → s.urn ∈ targets → s.urn ∈ ts ∨ j ∈ frontier

theorem Exploring.done {rs : List State} {targets ts : List String} (ho : Once rs) (h : Exploring rs targets [] ts)
    (j : Nat) (s : State) (hj : rs[j]? = some s) : s.urn ∈ ts ↔ Implicated rs targets j := by
  constructor
  · intro hu
    obtain ⟨k, t, hk, e, hi⟩ := h.sound _ hu
    have := once_inj ho hk hj e
    exact this ▸ hi
  · intro hi
    induction hi generalizing s with
    | target h1 h2 =>
      rw [hj] at h1; cases h1
      exact (h.asked _ _ hj h2).resolve_right (by simp)
    | child h1 h2 h3 _ ih =>
      rw [hj] at h1; cases h1
      exact (h.closed _ _ h2 (ih _ h2) _ _ hj (Or.inr h3)).resolve_right (by simp)
    | dependent h1 _ ih =>
      obtain ⟨s', t, h1, h2, h3⟩ := h1
      rw [hj] at h1; cases h1
      exact (h.closed _ _ h2 (ih _ h2) _ _ hj (Or.inl h3)).resolve_right (by simp)

theorem Exploring.skip {rs : List State} {targets ts : List String} {i : Nat} {frontier : List Nat} {s : State}
    (h : Exploring rs targets (i :: frontier) ts) (hs : rs[i]? = some s) (hu : s.urn ∈ ts) :
    Exploring rs targets frontier ts := by
  refine ⟨fun k hk => h.ahead k (by simp [hk]), h.sound, ?_, ?_⟩
  · intro k t hk ht j s' hj hor
    rcases h.closed k t hk ht j s' hj hor with h1 | h1
    · exact Or.inl h1
    · rcases List.mem_cons.1 h1 with rfl | h1
      · rw [hs] at hj; cases hj; exact Or.inl hu
      · exact Or.inr h1
  · intro j s' hj ht
    rcases h.asked j s' hj ht with h1 | h1
    · exact Or.inl h1
    · rcases List.mem_cons.1 h1 with rfl | h1
      · rw [hs] at hj; cases hj; exact Or.inl hu
      · exact Or.inr h1

theorem Exploring.visit {E} {rs : List State} (hI : Intact E rs) (hse : Settled rs) {targets ts : List String} {i : Nat}
    {frontier deps : List Nat} {s : State} (h : Exploring rs targets (i :: frontier) ts) (hs : rs[i]? = some s)
    (hd : ∀ j, j ∈ deps ↔ Later rs (fun u => decide (u ∈ s.urn :: ts)) true i j) :
    Exploring rs targets (frontier ++ deps) (s.urn :: ts) := by
  have ho := settled_once hI hse
  have hi := (h.ahead i (by simp)).2
  refine ⟨?_, ?_, ?_, ?_⟩
  · intro k hk
    rcases List.mem_append.1 hk with hk | hk
    · exact h.ahead k (by simp [hk])
    · have hl := (hd k).1 hk
      obtain ⟨x, hx⟩ := hl.get
      exact ⟨(List.getElem?_eq_some_iff.1 hx).1, later_implicated hl hi⟩
  · intro u hu
    rcases List.mem_cons.1 hu with rfl | hu
    · exact ⟨i, s, hs, rfl, hi⟩
    · exact h.sound u hu
  · intro k t hk ht j s' hj hor
    by_cases hu : s'.urn ∈ s.urn :: ts
    · exact Or.inl hu
    right
    rw [List.mem_append]
    rcases List.mem_cons.1 ht with ht | ht
    · have hki : k = i := once_inj ho hk hs ht
      subst hki
      rw [hs] at hk; cases hk
      right
      rw [hd]
      have hne : j ≠ k := by
        rintro rfl
        rw [hs] at hj; cases hj
        exact hu (by simp)
      rcases hor with hn | hp
      · have hr : Refers rs j k := ⟨s', s, hj, hs, hn⟩
        have := refers_before hI ho hr
        exact .direct (by omega) hj (by simpa using hu) hr
      · exact .child (parent_before hI ho hj hs hp (hse.named _ (List.mem_of_getElem? hs))) hj hs (by simpa using hu) rfl hp
    · rcases h.closed k t hk ht j s' hj hor with h1 | h1
      · exact absurd (List.mem_cons_of_mem _ h1) hu
      · rcases List.mem_cons.1 h1 with rfl | h1
        · rw [hs] at hj; cases hj; exact absurd (by simp) hu
        · exact Or.inl h1
  · intro j s' hj ht
    rcases h.asked j s' hj ht with h1 | h1
    · exact Or.inl (List.mem_cons_of_mem _ h1)
    · rcases List.mem_cons.1 h1 with rfl | h1
      · rw [hs] at hj; cases hj; exact Or.inl (by simp)
      · exact Or.inr (List.mem_append_left _ h1)

theorem explore_spec {E} {rs : List State} (h : Intact E rs) (hse : Settled rs) (targets : List String) :
    ∀ (fuel : Nat) (frontier : List Nat) (ts : List String),
    frontier.length + unexplored rs ts * rs.length ≤ fuel → Exploring rs targets frontier ts →
    ∃ out, explore rs fuel frontier ts = some out ∧
      (∀ u ∈ out, ∃ s ∈ rs, s.urn = u) ∧
      ∀ (j : Nat) (s : State), rs[j]? = some s → (s.urn ∈ out ↔ Implicated rs targets j) := by
  have ho := settled_once h hse
  have fin : ∀ ts, Exploring rs targets [] ts → (∀ u ∈ ts, ∃ s ∈ rs, s.urn = u) ∧
      ∀ (j : Nat) (s : State), rs[j]? = some s → (s.urn ∈ ts ↔ Implicated rs targets j) := by
    intro ts he
    refine ⟨fun u hu => ?_, he.done ho⟩
    obtain ⟨k, t, hk, e, _⟩ := he.sound u hu
    exact ⟨t, List.mem_of_getElem? hk, e⟩
  intro fuel
  induction fuel with
  | zero =>
    intro frontier ts hf he
    have : frontier = [] := List.length_eq_zero_iff.1 (by omega)
    subst this
    exact ⟨ts, by unfold explore; rfl, fin ts he⟩
  | succ fuel ihf =>
    intro frontier ts hf he
    cases frontier with
    | nil => exact ⟨ts, by unfold explore; rfl, fin ts he⟩
    | cons i frontier =>
      have hi := (he.ahead i (by simp)).1
      have hs : rs[i]? = some rs[i] := List.getElem?_eq_getElem hi
      unfold explore
      rw [hs]; simp only
      simp only [List.length_cons] at hf
      by_cases hu : rs[i].urn ∈ ts
      · rw [if_pos hu]
        exact ihf frontier ts (by omega) (he.skip hs hu)
      · rw [if_neg hu]
        obtain ⟨deps, h1, h2, h3⟩ := dependingOn_spec (ig := fun u => decide (u ∈ rs[i].urn :: ts)) (ch := true)
          (intact_parsed h) hi
        rw [h1]; simp only
        refine ihf _ _ ?_ (he.visit h hse hs h3)
        have hl : deps.length ≤ rs.length - 0 := increasing_length deps 0 rs.length h2 (fun x hx => by
          obtain ⟨s, hs⟩ := ((h3 x).1 hx).get
          exact ⟨Nat.zero_le _, (List.getElem?_eq_some_iff.1 hs).1⟩)
        have hlt := unexplored_lt (List.getElem_mem hi) hu
        have hm : (unexplored rs (rs[i].urn :: ts) + 1) * rs.length ≤ unexplored rs ts * rs.length :=
          Nat.mul_le_mul_right _ hlt
        rw [Nat.add_mul, Nat.one_mul] at hm
        rw [List.length_append]
        omega

theorem targetDependents_spec {E} {rs : List State} (h : Intact E rs) (hse : Settled rs) (targets : List String) :
    ∃ out, targetDependents rs targets = some out ∧ (∀ u ∈ out, ∃ s ∈ rs, s.urn = u) ∧
      ∀ (j : Nat) (s : State), rs[j]? = some s → (s.urn ∈ out ↔ Implicated rs targets j) := by
  have hfr : ∀ i, i ∈ frontierOf rs targets ↔ ∃ s, rs[i]? = some s ∧ s.urn ∈ targets := by
    intro i
    unfold frontierOf
    rw [List.mem_filter, List.mem_range]
    constructor
    · rintro ⟨_, hi⟩
      cases hs : rs[i]? with
      | none => rw [hs] at hi; cases hi
      | some s => rw [hs] at hi; exact ⟨s, rfl, by simpa using hi⟩
    · rintro ⟨s, hs, hu⟩
      exact ⟨(List.getElem?_eq_some_iff.1 hs).1, by rw [hs]; simpa using hu⟩
  refine explore_spec h hse targets _ _ _ ?_ ⟨?_, by simp, by simp, ?_⟩
  · have h1 : (frontierOf rs targets).length ≤ rs.length := by
      unfold frontierOf
      exact Nat.le_trans (List.length_filter_le _ _) (by simp)
    have h2 : unexplored rs [] * rs.length ≤ rs.length * rs.length :=
      Nat.mul_le_mul_right _ (List.length_filter_le _ _)
    rw [Nat.mul_add, Nat.mul_one]
    omega
  · intro i hi
    obtain ⟨s, hs, hu⟩ := (hfr i).1 hi
    exact ⟨(List.getElem?_eq_some_iff.1 hs).1, .target hs hu⟩
  · intro j s hj hu
    exact Or.inr ((hfr j).2 ⟨s, hj, hu⟩)

end Pulumi.DepGraph
