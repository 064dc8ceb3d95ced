import Verif.Props.Equal
/-!
# Diffs of property values
-/
namespace Pulumi.Props
open Pulumi.Engine (EV Blob RefId)

variable (hash : Blob → Option String)

/-! ## Leaving out the properties that are ignored -/

theorem mem_stripKvs (ign : String → Bool) (k : String) (v' : EV) : ∀ (a : List (String × EV)),
    (k, v') ∈ stripKvs ign a ↔ ∃ v, (k, v) ∈ a ∧ ign k = false ∧ v' = strip ign v
  | [] => by simp [stripKvs]
  | (k₀, v₀) :: rest => by
    have ih := mem_stripKvs ign k v' rest
    simp only [stripKvs]
    split
    · next hi =>
      rw [ih]
      constructor
      · rintro ⟨v, h1, h2, h3⟩; exact ⟨v, List.mem_cons_of_mem _ h1, h2, h3⟩
      · rintro ⟨v, h1, h2, h3⟩
        rcases List.mem_cons.mp h1 with h1 | h1
        · injection h1 with h1 _; rw [h1, hi] at h2; cases h2
        · exact ⟨v, h1, h2, h3⟩
    · next hi =>
      rw [List.mem_cons, ih]
      constructor
      · rintro (h | ⟨v, h1, h2, h3⟩)
        · injection h with h1 h2
          exact ⟨v₀, by rw [h1]; exact List.mem_cons_self, by rw [h1]; simpa using hi, h2⟩
        · exact ⟨v, List.mem_cons_of_mem _ h1, h2, h3⟩
      · rintro ⟨v, h1, h2, h3⟩
        rcases List.mem_cons.mp h1 with h1 | h1
        · injection h1 with h1 h4; left; rw [h1, h3, h4]
        · exact .inr ⟨v, h1, h2, h3⟩

theorem lookup_stripKvs (ign : String → Bool) (k : String) : ∀ (a : List (String × EV)),
    (stripKvs ign a).lookup k = if ign k then none else (a.lookup k).map (strip ign)
  | [] => by simp [stripKvs]
  | (k₀, v₀) :: rest => by
    have ih := lookup_stripKvs ign k rest
    simp only [stripKvs]
    by_cases hk : k = k₀
    · subst hk
      by_cases hi : ign k = true
      · simp only [hi, if_true] at ih ⊢; exact ih
      · simp [hi]
    · have hk' : (k == k₀) = false := by simpa using hk
      split
      · rw [ih, List.lookup_cons, hk']
      · rw [List.lookup_cons, hk', List.lookup_cons, hk']
        exact ih

theorem hasValue_strip (ign : String → Bool) (v : EV) : hasValue (strip ign v) = hasValue v := by
  cases v <;> simp [strip, hasValue]

theorem strip_nothing : ∀ v, strip (fun _ => false) v = v := by
  intro v
  induction v using EV.parts with
  | object a ih =>
    simp only [strip, EV.object.injEq]
    induction a with
    | nil => rfl
    | cons kv rest ihr =>
      obtain ⟨k, v⟩ := kv
      simp only [stripKvs, Bool.false_eq_true, if_false]
      rw [ih k v List.mem_cons_self, ihr (fun k v hm => ih k v (List.mem_cons_of_mem _ hm))]
  | _ => rfl

/-! ## What the first loop finds -/

theorem mem_diffKvs (ign : String → Bool) (b : List (String × EV)) : ∀ (a : List (String × EV)) (fs : List (String × Fate)),
    diffKvs hash ign a b = some fs → ∀ k f, (k, f) ∈ fs ↔ ∃ v, (k, v) ∈ a ∧ ign k = false ∧
      match b.lookup k with
      | some w => fate v w (diff hash ign v w) = some f
      | none => f = fateGone v
  | [], fs, h => by simp only [diffKvs, Option.some.injEq] at h; subst h; simp
  | (k₀, v₀) :: rest, fs, h => by
    simp only [diffKvs] at h
    cases hr : diffKvs hash ign rest b with
    | none => rw [hr] at h; cases h
    | some gs =>
      rw [hr] at h
      have ih := mem_diffKvs ign b rest gs hr
      simp only at h
      intro k f
      by_cases hi : ign k₀ = true
      · rw [if_pos hi] at h
        injection h with h
        subst h
        rw [ih k f]
        constructor
        · rintro ⟨v, h1, h2⟩; exact ⟨v, List.mem_cons_of_mem _ h1, h2⟩
        · rintro ⟨v, h1, h2⟩
          rcases List.mem_cons.mp h1 with h1 | h1
          · injection h1 with h1 _; rw [h1, hi] at h2; cases h2.1
          · exact ⟨v, h1, h2⟩
      · rw [if_neg hi] at h
        have hi' : ign k₀ = false := by simpa using hi
        have key : ∃ f₀, fs = (k₀, f₀) :: gs ∧
            (match b.lookup k₀ with
              | some w => fate v₀ w (diff hash ign v₀ w) = some f₀
              | none => f₀ = fateGone v₀) := by
          cases hb : b.lookup k₀ with
          | some w =>
            rw [hb] at h
            simp only at h
            cases hf : fate v₀ w (diff hash ign v₀ w) with
            | none => rw [hf] at h; cases h
            | some f₀ =>
              rw [hf] at h
              injection h with h
              exact ⟨f₀, h.symm, hf⟩
          | none =>
            rw [hb] at h
            injection h with h
            exact ⟨_, h.symm, rfl⟩
        obtain ⟨f₀, hfs, hf₀⟩ := key
        rw [hfs, List.mem_cons, ih k f]
        constructor
        · rintro (h | ⟨v, h1, h2⟩)
          · injection h with h1 h2
            exact ⟨v₀, by rw [h1]; exact List.mem_cons_self, by rw [h1]; exact hi', by rw [h1, h2]; exact hf₀⟩
          · exact ⟨v, List.mem_cons_of_mem _ h1, h2⟩
        · rintro ⟨v, h1, h2, h3⟩
          rcases List.mem_cons.mp h1 with h1 | h1
          · injection h1 with h1 h4
            left
            subst h1; subst h4
            cases hb : b.lookup k with
            | some w => rw [hb] at h3 hf₀; simp only at h3 hf₀; rw [h3] at hf₀; injection hf₀ with hf₀; rw [hf₀]
            | none => rw [hb] at h3 hf₀; simp only at h3 hf₀; rw [h3, hf₀]
          · exact .inr ⟨v, h1, h2, h3⟩

theorem keys_diffKvs (ign : String → Bool) (b : List (String × EV)) : ∀ (a : List (String × EV)) (fs : List (String × Fate)),
    diffKvs hash ign a b = some fs → List.Sublist (fs.map (·.1)) (a.map (·.1))
  | [], fs, h => by simp only [diffKvs, Option.some.injEq] at h; subst h; simp
  | (k₀, v₀) :: rest, fs, h => by
    simp only [diffKvs] at h
    cases hr : diffKvs hash ign rest b with
    | none => rw [hr] at h; cases h
    | some gs =>
      rw [hr] at h
      have ih := keys_diffKvs ign b rest gs hr
      simp only at h
      split at h
      · injection h with h; subst h; exact ih.cons _
      · split at h
        · split at h
          · cases h
          · injection h with h; subst h; exact ih.cons_cons _
        · injection h with h; subst h; exact ih.cons_cons _

theorem diffKvs_works (ign : String → Bool) (b : List (String × EV)) : ∀ (a : List (String × EV)),
    (∀ k v w, (k, v) ∈ a → b.lookup k = some w → ign k = false → isOutput w = false → ∃ r, diff hash ign v w = some r) →
    ∃ fs, diffKvs hash ign a b = some fs
  | [], _ => ⟨_, rfl⟩
  | (k₀, v₀) :: rest, h => by
    obtain ⟨gs, hgs⟩ := diffKvs_works ign b rest (fun k v w hm => h k v w (List.mem_cons_of_mem _ hm))
    simp only [diffKvs, hgs]
    by_cases hi : ign k₀ = true
    · rw [if_pos hi]; exact ⟨_, rfl⟩
    · rw [if_neg hi]
      cases hb : b.lookup k₀ with
      | none => exact ⟨_, rfl⟩
      | some w =>
        simp only
        have : ∃ f, fate v₀ w (diff hash ign v₀ w) = some f := by
          unfold fate
          by_cases ho : isOutput w = true
          · rw [if_pos ho]; exact ⟨_, rfl⟩
          · rw [if_neg ho]
            obtain ⟨r, hr⟩ := h k₀ v₀ w List.mem_cons_self hb (by simpa using hi) (by simpa using ho)
            rw [hr]
            cases r with
            | none => exact ⟨_, rfl⟩
            | some d =>
              simp only
              split
              · exact ⟨_, rfl⟩
              · split <;> exact ⟨_, rfl⟩
        obtain ⟨f, hf⟩ := this
        rw [hf]
        exact ⟨_, rfl⟩

theorem mem_gather (k : String) : ∀ (fs : List (String × Fate)),
    (∀ v, (k, v) ∈ (gather fs).adds ↔ (k, Fate.add v) ∈ fs) ∧ (∀ v, (k, v) ∈ (gather fs).dels ↔ (k, Fate.del v) ∈ fs) ∧
    (∀ v, (k, v) ∈ (gather fs).sames ↔ (k, Fate.same v) ∈ fs) ∧ (∀ d, (k, d) ∈ (gather fs).ups ↔ (k, Fate.up d) ∈ fs)
  | [] => by simp [gather]
  | (k₀, f) :: fs => by
    obtain ⟨h1, h2, h3, h4⟩ := mem_gather k fs
    cases f <;> simp [gather, h1, h2, h3, h4]

theorem ups_sublist : ∀ (fs : List (String × Fate)), List.Sublist ((gather fs).ups.map (·.1)) (fs.map (·.1))
  | [] => by simp [gather]
  | (k₀, f) :: fs => by
    have ih := ups_sublist fs
    cases f <;> simp only [gather, List.map_cons] <;> first | exact ih.cons _ | exact ih.cons_cons _

theorem finish_none (ign : String → Bool) (a b : List (String × EV)) (fs : List (String × Fate)) :
    finish ign a b fs = none ↔ (∀ k f, (k, f) ∈ fs → f = .skip ∨ ∃ v, f = .same v) ∧
      ∀ k w, (k, w) ∈ b → ign k = false → a.lookup k = none → hasValue w = false := by
  have hnil : ∀ {α : Type} (l : List (String × α)), l = [] ↔ ∀ k v, (k, v) ∉ l := by
    intro α l
    constructor
    · rintro rfl; simp
    · intro h
      cases l with
      | nil => rfl
      | cons x xs => exact absurd List.mem_cons_self (h x.1 x.2)
  unfold finish
  simp only
  constructor
  · intro h
    split at h
    · next hc =>
      obtain ⟨h1, h2, h3⟩ := hc
      rw [List.append_eq_nil_iff] at h1
      refine ⟨fun k f hf => ?_, fun k w hm hi hl => ?_⟩
      · obtain ⟨g1, g2, g3, g4⟩ := mem_gather k fs
        cases f with
        | skip => exact .inl rfl
        | same v => exact .inr ⟨v, rfl⟩
        | add v => exact absurd ((g1 v).mpr hf) ((hnil _).mp h1.1 k v)
        | del v => exact absurd ((g2 v).mpr hf) ((hnil _).mp h2 k v)
        | up v => exact absurd ((g4 v).mpr hf) ((hnil _).mp h3 k v)
      · cases hv : hasValue w with
        | false => rfl
        | true =>
          have := (hnil _).mp h1.2 k w
          exact absurd (List.mem_filter.mpr ⟨hm, by simp [hi, hl, hv]⟩) this
    · cases h
  · intro ⟨h1, h2⟩
    rw [if_pos]
    rw [List.append_eq_nil_iff]
    refine ⟨⟨(hnil _).mpr fun k v hm => ?_, (hnil _).mpr fun k v hm => ?_⟩, (hnil _).mpr fun k v hm => ?_, (hnil _).mpr fun k v hm => ?_⟩
    · rcases h1 k _ (((mem_gather k fs).1 v).mp hm) with h | ⟨_, h⟩ <;> cases h
    · rw [List.mem_filter] at hm
      simp only [Bool.and_eq_true, Bool.not_eq_true', Option.isNone_iff_eq_none] at hm
      have := h2 k v hm.1 hm.2.1.1 hm.2.1.2
      rw [hm.2.2] at this
      cases this
    · rcases h1 k _ (((mem_gather k fs).2.1 v).mp hm) with h | ⟨_, h⟩ <;> cases h
    · rcases h1 k _ (((mem_gather k fs).2.2.2 v).mp hm) with h | ⟨_, h⟩ <;> cases h

theorem fate_quiet {v w : EV} {r : Option (Option VDiff)} {f : Fate} (h : fate v w r = some f) :
    (f = .skip ∨ ∃ u, f = .same u) ↔ isOutput w = true ∨ r = some none := by
  unfold fate at h
  split at h
  · next ho => injection h with h; exact ⟨fun _ => .inl ho, fun _ => .inr ⟨_, h.symm⟩⟩
  · next ho =>
    constructor
    · intro hf
      right
      split at h
      · cases h
      · rfl
      · split at h
        · injection h with h; rw [← h] at hf; rcases hf with hf | ⟨_, hf⟩ <;> cases hf
        · split at h <;> (injection h with h; rw [← h] at hf; rcases hf with hf | ⟨_, hf⟩ <;> cases hf)
    · intro hr
      rcases hr with hr | hr
      · exact absurd hr ho
      · rw [hr] at h; injection h with h; exact .inr ⟨_, h.symm⟩

/-! ## Elements -/

theorem past_nil (n : Nat) (xs : List EV) : past n xs = [] ↔ xs.length ≤ n := by
  unfold past
  simp

theorem diffList_quiet : ∀ (xs ys : List EV) (i : Nat),
    (∃ sames, diffList hash i xs ys = some (sames, [])) ↔
      ∀ (j : Nat) (x y : EV), xs[j]? = some x → ys[j]? = some y → diff hash (fun _ => false) x y = some none
  | [], ys, i => by simp [diffList]
  | x :: xs, [], i => by simp [diffList]
  | x :: xs, y :: ys, i => by
    have ih := diffList_quiet xs ys (i + 1)
    simp only [diffList]
    constructor
    · rintro ⟨sames, h⟩ j x' y' hx hy
      cases hd : diff hash (fun _ => false) x y with
      | none => rw [hd] at h; cases hl : diffList hash (i + 1) xs ys <;> simp at h
      | some r =>
        cases hl : diffList hash (i + 1) xs ys with
        | none => rw [hd, hl] at h; cases r <;> simp at h
        | some su =>
          rw [hd, hl] at h
          cases r with
          | some d => simp at h
          | none =>
            simp only [Option.some.injEq, Prod.mk.injEq] at h
            cases j with
            | zero => simp at hx hy; rw [← hx, ← hy]; exact hd
            | succ j =>
              simp at hx hy
              exact ih.mp ⟨su.1, by rw [hl, ← h.2]⟩ j x' y' hx hy
    · intro h
      obtain ⟨sames, hs⟩ := ih.mpr (fun j x' y' hx hy => h (j + 1) x' y' (by simpa using hx) (by simpa using hy))
      rw [h 0 x y rfl rfl, hs]
      exact ⟨_, rfl⟩

theorem diffList_works : ∀ (xs ys : List EV) (i : Nat),
    (∀ x y, x ∈ xs → ∃ r, diff hash (fun _ => false) x y = some r) → ∃ r, diffList hash i xs ys = some r
  | [], ys, i, _ => ⟨_, rfl⟩
  | x :: xs, [], i, _ => ⟨_, rfl⟩
  | x :: xs, y :: ys, i, h => by
    obtain ⟨⟨s, u⟩, hs⟩ := diffList_works xs ys (i + 1) (fun x y hx => h x y (List.mem_cons_of_mem _ hx))
    obtain ⟨r, hr⟩ := h x y List.mem_cons_self
    simp only [diffList, hs, hr]
    cases r <;> exact ⟨_, rfl⟩

theorem diff_leaf (ign : String → Bool) (v w : EV) (h1 : ∀ xs ys, v = .array xs → w = .array ys → False)
    (h2 : ∀ a b, v = .object a → w = .object b → False) :
    diff hash ign v w = match deepEq hash v w with
      | none => none
      | some true => some none
      | some false => some (some (.leaf v w)) := by
  cases v <;> cases w <;> first | exact (h1 _ _ rfl rfl).elim | exact (h2 _ _ rfl rfl).elim | (simp only [diff]; rfl)

/-- C166: a comparison that asks how two values differ works. -/
theorem diff_works : ∀ (v w : EV) (ign : String → Bool), proper hash v = true → ∃ r, diff hash ign v w = some r := by
  intro v
  have leaf : ∀ (v w : EV) (ign : String → Bool), proper hash v = true → (∀ xs ys, v = .array xs → w = .array ys → False) →
      (∀ a b, v = .object a → w = .object b → False) → ∃ r, diff hash ign v w = some r := by
    intro v w ign hv h1 h2
    rw [diff_leaf hash ign v w h1 h2]
    obtain ⟨r, hr⟩ := comparison_works hash v w hv
    rw [hr]
    cases r <;> exact ⟨_, rfl⟩
  induction v using EV.parts with
  | array xs ih =>
    intro w ign hv
    cases w with
    | array ys =>
      simp only [proper] at hv
      obtain ⟨⟨s, u⟩, hs⟩ := diffList_works hash xs ys 0 (fun x y hx => ih x hx y _ (properList_mem hash hv x hx))
      simp only [diff, hs]
      split <;> exact ⟨_, rfl⟩
    | _ => exact leaf _ _ ign hv (by intro _ _ _ h; cases h) (by intro _ _ h; cases h)
  | object a ih =>
    intro w ign hv
    cases w with
    | object b =>
      obtain ⟨_, hp⟩ := proper_object hash hv
      obtain ⟨fs, hfs⟩ := diffKvs_works hash ign b a (fun k v w hm _ _ _ => ih k v hm w ign (hp k v hm))
      simp only [diff, hfs]
      exact ⟨_, rfl⟩
    | _ => exact leaf _ _ ign hv (by intro _ _ h; cases h) (by intro _ _ _ h; cases h)
  | _ => intro w ign hv; exact leaf _ _ ign hv (by intro _ _ h; cases h) (by intro _ _ h; cases h)

theorem deepEq_strip_other (ign : String → Bool) (v w : EV) (h : ∀ a b, v = .object a → w = .object b → False) :
    deepEq hash (strip ign v) (strip ign w) = deepEq hash v w := by
  cases v with
  | object a =>
    cases w with
    | object b => exact (h a b rfl rfl).elim
    | _ => rfl
  | _ => cases w <;> first | rfl | (simp only [strip, deepEq])

/-- C166: two values do not differ exactly where they are equal once what is ignored is left out. -/
theorem no_diff_iff_equal : ∀ (v w : EV) (ign : String → Bool), proper hash v = true → proper hash w = true → noOutputs w = true →
    (diff hash ign v w = some none ↔ deepEq hash (strip ign v) (strip ign w) = some true) := by
  intro v
  have leaf : ∀ (v w : EV) (ign : String → Bool), (∀ xs ys, v = .array xs → w = .array ys → False) →
      (∀ a b, v = .object a → w = .object b → False) →
      (diff hash ign v w = some none ↔ deepEq hash (strip ign v) (strip ign w) = some true) := by
    intro v w ign h1 h2
    rw [diff_leaf hash ign v w h1 h2, deepEq_strip_other hash ign v w h2]
    cases deepEq hash v w with
    | none => simp
    | some r => cases r <;> simp
  induction v using EV.parts with
  | array xs ih =>
    intro w ign hv hw ow
    cases w with
    | array ys =>
      simp only [strip]
      simp only [proper] at hv hw
      simp only [noOutputs] at ow
      rw [deepEq_array]
      have inner : ∀ (j : Nat) (x y : EV), xs[j]? = some x → ys[j]? = some y →
          (diff hash (fun _ => false) x y = some none ↔ deepEq hash x y = some true) := by
        intro j x y hx hy
        have mx := List.mem_of_getElem? hx
        have my := List.mem_of_getElem? hy
        have := ih x mx y (fun _ => false) (properList_mem hash hv x mx) (properList_mem hash hw y my) (noOutputsList_mem ow y my)
        rw [strip_nothing, strip_nothing] at this
        exact this
      simp only [diff]
      constructor
      · intro h
        split at h
        · cases h
        · next sames ups hl =>
          split at h
          · next hc =>
            obtain ⟨c1, c2, c3⟩ := hc
            rw [past_nil] at c1 c2
            subst c3
            refine ⟨Nat.le_antisymm c2 c1, fun i x y hx hy => ?_⟩
            exact (inner i x y hx hy).mp ((diffList_quiet hash xs ys 0).mp ⟨_, hl⟩ i x y hx hy)
          · cases h
      · rintro ⟨hl, he⟩
        obtain ⟨sames, hs⟩ := (diffList_quiet hash xs ys 0).mpr (fun j x y hx hy => (inner j x y hx hy).mpr (he j x y hx hy))
        rw [hs]
        simp only
        rw [if_pos]
        exact ⟨(past_nil _ _).mpr (Nat.le_of_eq hl.symm), (past_nil _ _).mpr (Nat.le_of_eq hl), trivial⟩
    | _ => exact leaf _ _ ign (by intro _ _ _ h; cases h) (by intro _ _ h; cases h)
  | object a ih =>
    intro w ign hv hw ow
    cases w with
    | object b =>
      obtain ⟨hna, hpa⟩ := proper_object hash hv
      obtain ⟨hnb, hpb⟩ := proper_object hash hw
      simp only [noOutputs] at ow
      obtain ⟨fs, hfs⟩ := diffKvs_works hash ign b a (fun k v w hm _ _ _ => diff_works hash v w ign (hpa k v hm))
      have hmem := mem_diffKvs hash ign b a fs hfs
      have hnout : ∀ k w, b.lookup k = some w → isOutput w = false := by
        intro k w hl
        have := noOutputsKvs_mem ow k w (lookup_mem hl)
        cases w <;> simp_all [noOutputs, isOutput]
      have e1 : diff hash ign (.object a) (.object b) = some none ↔ finish ign a b fs = none := by
        simp only [diff, hfs, Option.some.injEq, Option.map_eq_none_iff]
      rw [e1, finish_none, show strip ign (.object a) = .object (stripKvs ign a) by simp only [strip],
        show strip ign (.object b) = .object (stripKvs ign b) by simp only [strip], deepEq_object]
      constructor
      · rintro ⟨h1, h2⟩
        refine ⟨fun k v' hm => ?_, fun k w' hm hn => ?_⟩
        · obtain ⟨v, hva, hi, rfl⟩ := (mem_stripKvs ign k v' a).mp hm
          rw [lookup_stripKvs, hi]
          simp only [Bool.false_eq_true, if_false]
          cases hb : b.lookup k with
          | some w =>
            simp only [Option.map_some]
            obtain ⟨r, hr⟩ := diff_works hash v w ign (hpa k v hva)
            have : ∃ f, fate v w (diff hash ign v w) = some f := by
              unfold fate
              rw [hnout k w hb, hr]
              cases r with
              | none => exact ⟨_, rfl⟩
              | some d =>
                simp only [Bool.false_eq_true, if_false]
                split
                · exact ⟨_, rfl⟩
                · split <;> exact ⟨_, rfl⟩
            obtain ⟨f, hf⟩ := this
            have hq := h1 k f ((hmem k f).mpr ⟨v, hva, hi, by rw [hb]; exact hf⟩)
            rcases (fate_quiet hf).mp hq with ho | hd
            · rw [hnout k w hb] at ho; cases ho
            · exact (ih k v hva w ign (hpa k v hva) (hpb k w (lookup_mem hb)) (noOutputsKvs_mem ow k w (lookup_mem hb))).mp hd
          | none =>
            simp only [Option.map_none]
            have hq := h1 k _ ((hmem k (fateGone v)).mpr ⟨v, hva, hi, by rw [hb]⟩)
            rw [hasValue_strip]
            unfold fateGone at hq
            cases hhv : hasValue v with
            | false => rfl
            | true => rw [hhv] at hq; rcases hq with hq | ⟨_, hq⟩ <;> cases hq
        · obtain ⟨w, hwb, hi, rfl⟩ := (mem_stripKvs ign k w' b).mp hm
          rw [lookup_stripKvs, hi] at hn
          simp only [Bool.false_eq_true, if_false, Option.map_eq_none_iff] at hn
          rw [hasValue_strip]
          exact h2 k w hwb hi hn
      · rintro ⟨h1, h2⟩
        refine ⟨fun k f hf => ?_, fun k w hm hi hn => ?_⟩
        · obtain ⟨v, hva, hi, hf'⟩ := (hmem k f).mp hf
          have := h1 k (strip ign v) ((mem_stripKvs ign k _ a).mpr ⟨v, hva, hi, rfl⟩)
          rw [lookup_stripKvs, hi] at this
          simp only [Bool.false_eq_true, if_false] at this
          cases hb : b.lookup k with
          | some w =>
            rw [hb] at this hf'
            simp only [Option.map_some] at this hf'
            exact (fate_quiet hf').mpr (.inr ((ih k v hva w ign (hpa k v hva) (hpb k w (lookup_mem hb))
              (noOutputsKvs_mem ow k w (lookup_mem hb))).mpr this))
          | none =>
            rw [hb] at this hf'
            simp only [Option.map_none] at this hf'
            rw [hasValue_strip] at this
            rw [hf']
            unfold fateGone
            rw [this]
            exact .inl rfl
        · have := h2 k (strip ign w) ((mem_stripKvs ign k _ b).mpr ⟨w, hm, hi, rfl⟩)
            (by rw [lookup_stripKvs, hi, hn]; rfl)
          rwa [hasValue_strip] at this
    | _ => exact leaf _ _ ign (by intro _ _ h; cases h) (by intro _ _ _ h; cases h)
  | _ => intro w ign _ _ _; exact leaf _ _ ign (by intro _ _ h; cases h) (by intro _ _ h; cases h)

end Pulumi.Props
