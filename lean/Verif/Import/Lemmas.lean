import Verif.Import.Model
import Verif.Snapshot.Integrity
/-! # Lemmas on imports -/
namespace Pulumi.Import
open Pulumi.Snapshot (State Provider Ref Env Intact IntactFrom Backed Provides intact_iff intactFrom_iff)

theorem same_eq (r : State) : same r = r := by cases r; rfl

theorem old_some {prev : List State} {u : String} {s : State} (h : old prev u = some s) : s ∈ prev ∧ s.delete = false ∧ s.urn = u := by
  unfold old at h
  have h1 := List.find?_some h
  simp only [Bool.and_eq_true, Bool.not_eq_true', beq_iff_eq] at h1
  exact ⟨List.mem_of_find?_eq_some h, h1.1, h1.2⟩

theorem old_none {prev : List State} {u : String} : old prev u = none ↔ ∀ s ∈ prev, s.delete = false → s.urn ≠ u := by
  unfold old
  simp [List.find?_eq_none]

/-! ## Resources that there are -/

theorem existing_perm (k : Nat) (l : List State) : ((existing k l).1 ++ (existing k l).2).Perm l := by
  induction l generalizing k with
  | nil => simp [existing]
  | cons r l ih =>
    unfold existing
    cases hd : r.delete with
    | true =>
      simp only [if_true]
      exact List.perm_middle.trans ((ih k).cons r)
    | false =>
      cases k with
      | zero => simp
      | succ k =>
        simp only [Bool.false_eq_true, if_false, same_eq, List.cons_append]
        exact (ih k).cons r

theorem existing_fst_sublist (k : Nat) (l : List State) : (existing k l).1.Sublist l := by
  induction l generalizing k with
  | nil => simp [existing]
  | cons r l ih =>
    unfold existing
    cases hd : r.delete with
    | true => simp only [if_true]; exact (ih k).cons r
    | false =>
      cases k with
      | zero => simp
      | succ k =>
        simp only [Bool.false_eq_true, if_false, same_eq]
        exact (ih k).cons_cons r

theorem existing_snd_sublist (k : Nat) (l : List State) : (existing k l).2.Sublist l := by
  induction l generalizing k with
  | nil => simp [existing]
  | cons r l ih =>
    unfold existing
    cases hd : r.delete with
    | true => simp only [if_true]; exact (ih k).cons_cons r
    | false =>
      cases k with
      | zero => simp
      | succ k =>
        simp only [Bool.false_eq_true, if_false]
        exact (ih k).cons r

theorem existing_fst (k : Nat) (l : List State) : (existing k l).1 = (l.filter (!·.delete)).take k := by
  induction l generalizing k with
  | nil => simp [existing]
  | cons r l ih =>
    unfold existing
    cases hd : r.delete with
    | true => simp [hd, ih]
    | false =>
      cases k with
      | zero => simp
      | succ k => simp [hd, ih, same_eq]

theorem existing_all {k : Nat} {l : List State} (h : (l.filter (!·.delete)).length ≤ k) : existing k l = (l.filter (!·.delete), l.filter (·.delete)) := by
  induction l generalizing k with
  | nil => simp [existing]
  | cons r l ih =>
    unfold existing
    cases hd : r.delete with
    | true => simp [hd] at h ⊢; simp [ih h]
    | false =>
      cases k with
      | zero => simp [hd] at h
      | succ k => simp [hd] at h ⊢; simp [ih h, same_eq]

/-! ## Intact lists -/

theorem backed_mono {E : Env} {b c : List State} {s : State} (h : Backed E b s) (hs : ∀ x ∈ b, x ∈ c) (hu : s.delete = true ∨ ∀ x ∈ c, x.urn ≠ s.urn) : Backed E c s := by
  refine ⟨h.referenceable, ?_, ?_, fun d hd => ?_, hu⟩
  · rcases h.provider with h1 | ⟨r, h1, x, hx, hp⟩
    · exact .inl h1
    · refine .inr ⟨r, h1, x, ?_, hp⟩
      rcases List.mem_append.mp hx with hx | hx
      · exact List.mem_append_left _ (hs x hx)
      · exact List.mem_append_right _ hx
  · rcases h.parent with h1 | ⟨x, hx, e⟩
    · exact .inl h1
    · exact .inr ⟨x, hs x hx, e⟩
  · obtain ⟨x, hx, e⟩ := h.deps d hd
    exact ⟨x, hs x hx, e⟩

theorem intactFrom_congr {E : Env} {l b c : List State} (h : IntactFrom E b l) (hs : ∀ x, x ∈ b ↔ x ∈ c) : IntactFrom E c l := by
  induction l generalizing b c with
  | nil => trivial
  | cons s l ih =>
    refine ⟨backed_mono h.1 (fun x hx => (hs x).mp hx) ?_, ih h.2 fun x => by simp [hs x]⟩
    rcases h.1.unique with h1 | h1
    · exact .inl h1
    · exact .inr fun x hx => h1 x ((hs x).mpr hx)

theorem intactFrom_prefix {E : Env} {l m b : List State} (h : IntactFrom E b (l ++ m)) : IntactFrom E b l := by
  induction l generalizing b with
  | nil => trivial
  | cons s l ih => exact ⟨h.1, ih h.2⟩

/-- What is to be deleted may stand behind everything else. -/
theorem deleted_intact {E : Env} {l : List State} : ∀ {pre F : List State}, IntactFrom E pre l → (∀ x ∈ pre, x ∈ F) → (∀ x ∈ l, x.delete = false → x ∈ F) →
    IntactFrom E F (l.filter (·.delete)) := by
  induction l with
  | nil => intros; trivial
  | cons s l ih =>
    intro pre F h hp hl
    cases hd : s.delete with
    | true =>
      rw [List.filter_cons_of_pos (by simp [hd])]
      refine ⟨backed_mono h.1 hp (.inl hd), ih h.2 (fun x hx => ?_) (fun x hx hx2 => List.mem_append_left _ (hl x (List.mem_cons_of_mem _ hx) hx2))⟩
      rcases List.mem_append.mp hx with hx | hx
      · exact List.mem_append_left _ (hp x hx)
      · exact List.mem_append_right _ hx
    | false =>
      rw [List.filter_cons_of_neg (by simp [hd])]
      refine ih h.2 (fun x hx => ?_) (fun x hx hx2 => hl x (List.mem_cons_of_mem _ hx) hx2)
      rcases List.mem_append.mp hx with hx | hx
      · exact hp x hx
      · rw [List.mem_singleton.mp hx]; exact hl s List.mem_cons_self hd

theorem existing_intact_from {E : Env} {l : List State} : ∀ {k : Nat} {pre F : List State}, IntactFrom E pre l → (∀ x, x ∈ F ↔ x ∈ pre ∨ x ∈ (existing k l).1) →
    IntactFrom E F (existing k l).2 := by
  induction l with
  | nil => intros; trivial
  | cons s l ih =>
    intro k pre F h hF
    unfold existing at hF ⊢
    cases hd : s.delete with
    | true =>
      simp only [hd, if_true] at hF ⊢
      refine ⟨backed_mono h.1 (fun x hx => (hF x).mpr (.inl hx)) (.inl hd), ih (pre := pre ++ [s]) h.2 fun x => ?_⟩
      simp only [List.mem_append, hF]
      constructor
      · rintro ((h1 | h1) | h1)
        · exact .inl (.inl h1)
        · exact .inr h1
        · exact .inl (.inr h1)
      · rintro ((h1 | h1) | h1)
        · exact .inl (.inl h1)
        · exact .inr h1
        · exact .inl (.inr h1)
    | false =>
      cases k with
      | zero =>
        simp only [hd, Bool.false_eq_true, if_false] at hF ⊢
        exact intactFrom_congr h fun x => by simp [hF]
      | succ k =>
        simp only [hd, Bool.false_eq_true, if_false, same_eq] at hF ⊢
        refine ih (pre := pre ++ [s]) h.2 fun x => ?_
        rw [hF]
        simp only [List.mem_cons, List.mem_append, List.not_mem_nil, or_false]
        constructor
        · rintro (h1 | h1 | h1)
          · exact .inl (.inl h1)
          · exact .inl (.inr h1)
          · exact .inr h1
        · rintro ((h1 | h1) | h1)
          · exact .inl h1
          · exact .inr (.inl h1)
          · exact .inr (.inr h1)

/-- Resources none of which refers to another one of them -/
theorem independent_intact {E : Env} {l : List State} : ∀ {F : List State}, (∀ s ∈ l, Backed E F s) → (l.map (·.urn)).Nodup → IntactFrom E F l := by
  induction l with
  | nil => intros; trivial
  | cons s l ih =>
    intro F h hn
    rw [List.map_cons, List.nodup_cons] at hn
    refine ⟨h s List.mem_cons_self, ih (fun x hx => ?_) hn.2⟩
    have hx' := h x (List.mem_cons_of_mem _ hx)
    refine backed_mono hx' (fun y hy => List.mem_append_left _ hy) ?_
    rcases hx'.unique with h1 | h1
    · exact .inl h1
    · refine .inr fun y hy => ?_
      rcases List.mem_append.mp hy with hy | hy
      · exact h1 y hy
      · rw [List.mem_singleton.mp hy]
        exact fun e => hn.1 (e ▸ List.mem_map_of_mem hx)

/-! ## Steps that are run side by side -/

theorem mem_run {f : State → Option State} {steps : List State} {order : List Nat} {s' : State} (h : s' ∈ run f steps order) : ∃ s ∈ steps, f s = some s' := by
  unfold run at h
  obtain ⟨i, -, hi⟩ := List.mem_filterMap.mp h
  cases hs : steps[i]? with
  | none => rw [hs] at hi; cases hi
  | some s => rw [hs] at hi; exact ⟨s, List.mem_of_getElem? hs, hi⟩

theorem run_nodup {f : State → Option State} (hf : ∀ s s', f s = some s' → s'.urn = s.urn) {steps : List State} (hs : (steps.map (·.urn)).Nodup) {order : List Nat} (ho : order.Nodup) :
    ((run f steps order).map (·.urn)).Nodup := by
  unfold run
  rw [List.Nodup, List.pairwise_map, List.pairwise_filterMap]
  refine List.Pairwise.imp_of_mem (fun {i j} hi hj hij => ?_) ho
  intro x hx y hy
  cases hsi : steps[i]? with
  | none => rw [hsi] at hx; cases hx
  | some s =>
    cases hsj : steps[j]? with
    | none => rw [hsj] at hy; cases hy
    | some s2 =>
      rw [hsi] at hx
      rw [hsj] at hy
      rw [hf s x hx, hf s2 y hy]
      intro e
      obtain ⟨h1, e1⟩ := List.getElem?_eq_some_iff.mp hsi
      obtain ⟨h2, e2⟩ := List.getElem?_eq_some_iff.mp hsj
      rw [List.Nodup, List.pairwise_iff_getElem] at hs
      rcases Nat.lt_trichotomy i j with hlt | heq | hlt
      · exact hs i j (by simpa using h1) (by simpa using h2) hlt (by simp [e1, e2, e])
      · exact hij heq
      · exact hs j i (by simpa using h2) (by simpa using h1) hlt (by simp [e1, e2, e])

theorem allRun_mem {f : State → Option State} {steps : List State} {order : List Nat} (h : allRun f steps order = true) {s : State} (hs : s ∈ steps) : ∃ s', f s = some s' ∧ s' ∈ run f steps order := by
  obtain ⟨i, hi⟩ := List.mem_iff_getElem?.mp hs
  unfold allRun at h
  rw [List.all_eq_true] at h
  have hlt : i < steps.length := (List.getElem?_eq_some_iff.mp hi).1
  have h1 := h i (List.mem_range.mpr hlt)
  rw [hi, Bool.and_eq_true, List.contains_iff_mem] at h1
  simp only [Option.bind_some] at h1
  obtain ⟨s', e⟩ := Option.isSome_iff_exists.mp h1.2
  exact ⟨s', e, List.mem_filterMap.mpr ⟨i, h1.1, by rw [hi]; exact e⟩⟩

end Pulumi.Import
