import Verif.Plan.Values
/-!
# Plans: lemmas about comparisons that take unknown values for anything
-/
namespace Pulumi.Plan
open Pulumi.Engine (EV Blob RefId)
open Pulumi.Props

variable (hash : Blob → Option String)

theorem eqUKvs_true : ∀ (a b : List (String × EV)), eqUKvs hash a b = true ↔
    ∀ k v, (k, v) ∈ a → match b.lookup k with
      | some w => eqU hash v w = true
      | none => hasValue v = false ∨ isComputed v = true
  | [], _ => by simp [eqUKvs]
  | (k, v) :: rest, b => by
    simp only [eqUKvs, Bool.and_eq_true, eqUKvs_true rest b, List.mem_cons]
    constructor
    · rintro ⟨h1, h2⟩ k' v' (h | h)
      · injection h with e1 e2
        subst e1 e2
        cases hl : b.lookup k' with
        | some w => rw [hl] at h1; exact h1
        | none => rw [hl] at h1; simpa using h1
      · exact h2 k' v' h
    · intro h
      refine ⟨?_, fun k' v' hm => h k' v' (.inr hm)⟩
      have := h k v (.inl rfl)
      cases hl : b.lookup k with
      | some w => rw [hl] at this; exact this
      | none => rw [hl] at this; simpa using this

theorem eqUList_true : ∀ (xs ys : List EV), xs.length = ys.length → (eqUList hash xs ys = true ↔
    ∀ (i : Nat) (x y : EV), xs[i]? = some x → ys[i]? = some y → eqU hash x y = true)
  | [], ys, _ => by simp [eqUList]
  | x :: xs, [], h => by cases h
  | x :: xs, y :: ys, h => by
    simp only [eqUList, Bool.and_eq_true, eqUList_true xs ys (by simpa using h)]
    constructor
    · rintro ⟨h1, h2⟩ i x' y' hx hy
      cases i with
      | zero => simp at hx hy; subst hx hy; exact h1
      | succ i => exact h2 i x' y' (by simpa using hx) (by simpa using hy)
    · intro h
      exact ⟨h 0 x y (by simp) (by simp), fun i x' y' hx hy => h (i + 1) x' y' (by simpa using hx) (by simpa using hy)⟩

theorem eqU_array (xs ys : List EV) : eqU hash (.array xs) (.array ys) = true ↔
    xs.length = ys.length ∧ ∀ (i : Nat) (x y : EV), xs[i]? = some x → ys[i]? = some y → eqU hash x y = true := by
  simp only [eqU, Bool.and_eq_true, decide_eq_true_eq]
  constructor
  · rintro ⟨h1, h2⟩; exact ⟨h1, (eqUList_true hash xs ys h1).mp h2⟩
  · rintro ⟨h1, h2⟩; exact ⟨h1, (eqUList_true hash xs ys h1).mpr h2⟩

theorem eqU_object (a b : List (String × EV)) : eqU hash (.object a) (.object b) = true ↔
    (∀ k v, (k, v) ∈ a → match b.lookup k with
      | some w => eqU hash v w = true
      | none => hasValue v = false ∨ isComputed v = true) ∧
    ∀ k w, (k, w) ∈ b → a.lookup k = none → hasValue w = false := by
  simp only [eqU, Bool.and_eq_true, eqUKvs_true, List.all_eq_true]
  refine ⟨fun ⟨h1, h2⟩ => ⟨h1, fun k w hm hn => by simpa [hn] using h2 _ hm⟩, fun ⟨h1, h2⟩ => ⟨h1, fun kw hm => ?_⟩⟩
  cases hl : a.lookup kw.1 with
  | none => simpa [hl] using h2 kw.1 kw.2 hm hl
  | some _ => simp

theorem eqU_computed (v e : EV) : eqU hash v (.computed e) = true := by cases v <;> simp [eqU]

theorem computed_eqU (v e : EV) : eqU hash (.computed e) v = true := by cases v <;> simp [eqU]

theorem mem_diffUKvs (k : String) (f : Fate) (b : List (String × EV)) : ∀ (a : List (String × EV)), (k, f) ∈ diffUKvs hash a b ↔
    ∃ v, (k, v) ∈ a ∧ f = match b.lookup k with
      | some w => fateU v w (diffU hash v w)
      | none => fateGoneU v
  | [] => by simp [diffUKvs]
  | (k', v) :: rest => by
    simp only [diffUKvs, List.mem_cons, mem_diffUKvs k f b rest, Prod.mk.injEq]
    constructor
    · rintro (⟨rfl, h⟩ | ⟨v', hm, h⟩)
      · exact ⟨v, .inl ⟨rfl, rfl⟩, h⟩
      · exact ⟨v', .inr hm, h⟩
    · rintro ⟨v', ⟨rfl, rfl⟩ | hm, h⟩
      · exact .inl ⟨rfl, h⟩
      · exact .inr ⟨v', hm, h⟩

theorem diffUList_quiet : ∀ (xs ys : List EV) (i : Nat), (diffUList hash i xs ys).2 = [] ↔
    ∀ (j : Nat) (x y : EV), xs[j]? = some x → ys[j]? = some y → diffU hash x y = none
  | [], ys, i => by simp [diffUList]
  | x :: xs, [], i => by simp [diffUList]
  | x :: xs, y :: ys, i => by
    have ih := diffUList_quiet xs ys (i + 1)
    simp only [diffUList]
    cases hd : diffU hash x y with
    | some d =>
      simp only [List.cons_ne_nil, false_iff]
      intro h
      have := h 0 x y (by simp) (by simp)
      rw [hd] at this
      cases this
    | none =>
      simp only [ih]
      constructor
      · intro h j x' y' hx hy
        cases j with
        | zero => simp at hx hy; subst hx hy; exact hd
        | succ j => exact h j x' y' (by simpa using hx) (by simpa using hy)
      · intro h j x' y' hx hy
        exact h (j + 1) x' y' (by simpa using hx) (by simpa using hy)

theorem diffU_leaf (v w : EV) (h1 : ∀ xs ys, v = .array xs → w = .array ys → False) (h2 : ∀ a b, v = .object a → w = .object b → False) :
    diffU hash v w = if eqU hash v w then none else some (.leaf v w) := by
  cases v <;> cases w <;> first | rfl | (exact (h1 _ _ rfl rfl).elim) | (exact (h2 _ _ rfl rfl).elim) | simp only [diffU]

theorem fateU_quiet (v w : EV) (r : Option VDiff) :
    (fateU v w r = .skip ∨ ∃ u, fateU v w r = .same u) ↔ isOutput w = true ∨ r = none := by
  unfold fateU
  cases ho : isOutput w with
  | true => simp
  | false =>
    cases r with
    | none => simp
    | some d =>
      simp only [Bool.false_eq_true, if_false]
      split
      · simp
      · split <;> simp

/-- Nothing differs where the values are equal, unknown values being taken for anything. -/
theorem no_diffU : ∀ (v w : EV), proper hash v = true → proper hash w = true → noOutputs w = true →
    (diffU hash v w = none ↔ eqU hash v w = true) := by
  intro v
  have leaf : ∀ (v w : EV), (∀ xs ys, v = .array xs → w = .array ys → False) → (∀ a b, v = .object a → w = .object b → False) →
      (diffU hash v w = none ↔ eqU hash v w = true) := by
    intro v w h1 h2
    rw [diffU_leaf hash v w h1 h2]
    cases eqU hash v w <;> simp
  induction v using EV.parts with
  | array xs ih =>
    intro w hv hw ow
    cases w with
    | array ys =>
      simp only [proper] at hv hw
      simp only [noOutputs] at ow
      rw [eqU_array]
      have inner : ∀ (j : Nat) (x y : EV), xs[j]? = some x → ys[j]? = some y → (diffU hash x y = none ↔ eqU hash x y = true) := by
        intro j x y hx hy
        have mx := List.mem_of_getElem? hx
        have my := List.mem_of_getElem? hy
        exact ih x mx y (properList_mem hash hv x mx) (properList_mem hash hw y my) (noOutputsList_mem ow y my)
      simp only [diffU, ite_eq_left_iff, reduceCtorEq, imp_false, Classical.not_not]
      rw [past_nil, past_nil, diffUList_quiet]
      constructor
      · rintro ⟨c1, c2, c3⟩
        exact ⟨Nat.le_antisymm c2 c1, fun i x y hx hy => (inner i x y hx hy).mp (c3 i x y hx hy)⟩
      · rintro ⟨hl, he⟩
        exact ⟨Nat.le_of_eq hl.symm, Nat.le_of_eq hl, fun i x y hx hy => (inner i x y hx hy).mpr (he i x y hx hy)⟩
    | _ => exact leaf _ _ (by intro _ _ _ h; cases h) (by intro _ _ h; cases h)
  | object a ih =>
    intro w hv hw ow
    cases w with
    | object b =>
      obtain ⟨hna, hpa⟩ := proper_object hash hv
      obtain ⟨hnb, hpb⟩ := proper_object hash hw
      simp only [noOutputs] at ow
      rw [eqU_object]
      simp only [diffU, Option.map_eq_none_iff]
      rw [finish_none]
      refine and_congr ⟨fun h k v hm => ?_, fun h k f hm => ?_⟩ ⟨fun h k w hm hl => h k w hm rfl hl, fun h k w hm _ hl => h k w hm hl⟩
      · have := h k _ ((mem_diffUKvs hash k _ b a).mpr ⟨v, hm, rfl⟩)
        cases hl : b.lookup k with
        | some w =>
          have now := noOutputsKvs_mem ow k w (lookup_mem hl)
          rw [hl] at this
          simp only at this ⊢
          rw [fateU_quiet, isOutput_false now] at this
          simp only [Bool.false_eq_true, false_or] at this
          exact (ih k v hm w (hpa k v hm) (hpb k w (lookup_mem hl)) now).mp this
        | none =>
          rw [hl] at this
          simp only at this ⊢
          unfold fateGoneU at this
          cases hc : isComputed v with
          | true => exact .inr rfl
          | false =>
            cases hh : hasValue v with
            | false => exact .inl rfl
            | true => simp [hc, hh] at this
      · obtain ⟨v, hva, rfl⟩ := (mem_diffUKvs hash k _ b a).mp hm
        have := h k v hva
        cases hl : b.lookup k with
        | some w =>
          have now := noOutputsKvs_mem ow k w (lookup_mem hl)
          rw [hl] at this
          simp only at this ⊢
          rw [fateU_quiet]
          exact .inr ((ih k v hva w (hpa k v hva) (hpb k w (lookup_mem hl)) now).mpr this)
        | none =>
          rw [hl] at this
          simp only at this ⊢
          unfold fateGoneU
          rcases this with h | h <;> simp [h]
    | _ => exact leaf _ _ (by intro _ _ h; cases h) (by intro _ _ _ h; cases h)
  | _ => intro w _ _ _; exact leaf _ _ (by intro _ _ h; cases h) (by intro _ _ h; cases h)

theorem newOf_diffU {v w : EV} {vd : VDiff} (h : diffU hash v w = some vd) : newOf vd = w := by
  by_cases ha : ∃ xs ys, v = .array xs ∧ w = .array ys
  · obtain ⟨xs, ys, rfl, rfl⟩ := ha
    simp only [diffU] at h
    split at h
    · cases h
    · injection h with h; subst h; rfl
  · by_cases ho : ∃ a b, v = .object a ∧ w = .object b
    · obtain ⟨a, b, rfl, rfl⟩ := ho
      simp only [diffU, Option.map_eq_some_iff] at h
      obtain ⟨d, _, rfl⟩ := h
      rfl
    · rw [diffU_leaf hash v w (fun xs ys e1 e2 => ha ⟨xs, ys, e1, e2⟩) (fun a b e1 e2 => ho ⟨a, b, e1, e2⟩)] at h
      split at h
      · cases h
      · injection h with h; subst h; rfl

theorem newOf_diff {ign : String → Bool} {v w : EV} {vd : VDiff} (h : diff hash ign v w = some (some vd)) : newOf vd = w := by
  by_cases ha : ∃ xs ys, v = .array xs ∧ w = .array ys
  · obtain ⟨xs, ys, rfl, rfl⟩ := ha
    simp only [diff] at h
    split at h
    · cases h
    · split at h
      · cases h
      · injection h with h; injection h with h; subst h; rfl
  · by_cases ho : ∃ a b, v = .object a ∧ w = .object b
    · obtain ⟨a, b, rfl, rfl⟩ := ho
      obtain ⟨d, _, rfl⟩ := diff_object_some hash h
      rfl
    · rw [diff_leaf hash ign v w (fun xs ys e1 e2 => ha ⟨xs, ys, e1, e2⟩) (fun a b e1 e2 => ho ⟨a, b, e1, e2⟩)] at h
      split at h
      · cases h
      · cases h
      · injection h with h; injection h with h; subst h; rfl

/-- the diff `checkDiff` works with (plan.go:309, 369-372) -/
def between (olds news : List (String × EV)) : ODiff := (mapDiffU hash olds news).getD ⟨[], [], [], []⟩

/-- What is in the diff of two maps -/
theorem between_sorts (a b : List (String × EV)) (ha : proper hash (.object a) = true) (hb : proper hash (.object b) = true)
    (oa : noOutputs (.object a) = true) (ob : noOutputs (.object b) = true) (k : String) :
    (∀ w, (k, w) ∈ (between hash a b).adds ↔ b.lookup k = some w ∧ hasValue w = true ∧
      (a.lookup k = none ∨ ∃ v, a.lookup k = some v ∧ hasValue v = false ∧ eqU hash v w = false)) ∧
    (∀ v, (k, v) ∈ (between hash a b).dels ↔ a.lookup k = some v ∧ hasValue v = true ∧
      ((b.lookup k = none ∧ isComputed v = false) ∨ ∃ w, b.lookup k = some w ∧ hasValue w = false ∧ eqU hash v w = false)) ∧
    (∀ vd, (k, vd) ∈ (between hash a b).ups ↔ ∃ v w, a.lookup k = some v ∧ hasValue v = true ∧ b.lookup k = some w ∧ hasValue w = true ∧
      diffU hash v w = some vd) ∧
    (∀ w, (k, w) ∈ (between hash a b).sames → b.lookup k = some w) ∧
    (mapDiffU hash a b ≠ none → ∀ v w, a.lookup k = some v → b.lookup k = some w → eqU hash v w = true →
      (k, w) ∈ (between hash a b).sames) := by
  obtain ⟨hna, hpa⟩ := proper_object hash ha
  obtain ⟨hnb, hpb⟩ := proper_object hash hb
  simp only [noOutputs] at oa ob
  have fate_of : ∀ v w, a.lookup k = some v → b.lookup k = some w →
      (eqU hash v w = true ∧ fateU v w (diffU hash v w) = .same w) ∨
      (eqU hash v w = false ∧ hasValue v = false ∧ hasValue w = true ∧ fateU v w (diffU hash v w) = .add w) ∨
      (eqU hash v w = false ∧ hasValue v = true ∧ hasValue w = false ∧ fateU v w (diffU hash v w) = .del v) ∨
      (eqU hash v w = false ∧ hasValue v = true ∧ hasValue w = true ∧ ∃ vd, diffU hash v w = some vd ∧
        fateU v w (diffU hash v w) = .up vd) := by
    intro v w hv hw
    have nov := noOutputsKvs_mem oa k v (lookup_mem hv)
    have now := noOutputsKvs_mem ob k w (lookup_mem hw)
    have hq := no_diffU hash v w (hpa k v (lookup_mem hv)) (hpb k w (lookup_mem hw)) now
    unfold fateU
    rw [isOutput_false now]
    cases hd : diffU hash v w with
    | none => exact .inl ⟨hq.mp hd, rfl⟩
    | some vd =>
      have hne : eqU hash v w = false := by
        cases he : eqU hash v w with
        | false => rfl
        | true => rw [hq.mpr he] at hd; cases hd
      cases hv' : hasValue v with
      | false =>
        cases hw' : hasValue w with
        | false =>
          rw [no_value nov hv', no_value now hw'] at hne
          simp [eqU] at hne
        | true => exact .inr (.inl ⟨hne, rfl, rfl, by simp⟩)
      | true =>
        cases hw' : hasValue w with
        | false => exact .inr (.inr (.inl ⟨hne, rfl, rfl, by simp⟩))
        | true => exact .inr (.inr (.inr ⟨hne, rfl, rfl, vd, rfl, by simp⟩))
  -- the lists before anything is said to be no diff
  have hfs : ∀ f, (k, f) ∈ diffUKvs hash a b ↔ ∃ v, a.lookup k = some v ∧ f = match b.lookup k with
      | some w => fateU v w (diffU hash v w)
      | none => fateGoneU v := by
    intro f
    rw [mem_diffUKvs]
    exact ⟨fun ⟨v, hm, h⟩ => ⟨v, lookup_of_mem hna hm, h⟩, fun ⟨v, hm, h⟩ => ⟨v, lookup_mem hm, h⟩⟩
  obtain ⟨g1, g2, g3, g4⟩ := mem_gather k (diffUKvs hash a b)
  have raw : ∀ (D : ODiff), (D.adds = (gather (diffUKvs hash a b)).adds ++
        b.filter (fun kw => !nothing kw.1 && (a.lookup kw.1).isNone && hasValue kw.2)) →
      D.dels = (gather (diffUKvs hash a b)).dels → D.ups = (gather (diffUKvs hash a b)).ups →
      (∀ w, (k, w) ∈ D.adds ↔ b.lookup k = some w ∧ hasValue w = true ∧
        (a.lookup k = none ∨ ∃ v, a.lookup k = some v ∧ hasValue v = false ∧ eqU hash v w = false)) ∧
      (∀ v, (k, v) ∈ D.dels ↔ a.lookup k = some v ∧ hasValue v = true ∧
        ((b.lookup k = none ∧ isComputed v = false) ∨ ∃ w, b.lookup k = some w ∧ hasValue w = false ∧ eqU hash v w = false)) ∧
      (∀ vd, (k, vd) ∈ D.ups ↔ ∃ v w, a.lookup k = some v ∧ hasValue v = true ∧ b.lookup k = some w ∧ hasValue w = true ∧
        diffU hash v w = some vd) := by
    intro D e1 e2 e4
    refine ⟨fun w => ?_, fun v => ?_, fun vd => ?_⟩
    · rw [e1, List.mem_append, g1 w, hfs, List.mem_filter]
      constructor
      · rintro (⟨v, hv, hf⟩ | ⟨hm, hc⟩)
        · cases hl : b.lookup k with
          | none =>
            rw [hl] at hf
            simp only [fateGoneU] at hf
            split at hf <;> first | (cases hf; done) | (split at hf <;> cases hf)
          | some w' =>
            rw [hl] at hf
            simp only at hf
            rcases fate_of v w' hv hl with ⟨_, h⟩ | ⟨h0, h1, h2, h⟩ | ⟨_, _, _, h⟩ | ⟨_, _, _, _, _, h⟩ <;> rw [h] at hf <;>
              first | (cases hf; done) | skip
            injection hf with hf
            subst hf
            exact ⟨rfl, h2, .inr ⟨v, hv, h1, h0⟩⟩
        · simp only [Bool.and_eq_true, Option.isNone_iff_eq_none] at hc
          exact ⟨lookup_of_mem hnb hm, hc.2, .inl hc.1.2⟩
      · rintro ⟨hw, hh, hn | ⟨v, hv, h1, h0⟩⟩
        · exact .inr ⟨lookup_mem hw, by simp [hn, hh]⟩
        · refine .inl ⟨v, hv, ?_⟩
          rw [hw]
          simp only
          rcases fate_of v w hv hw with ⟨h, _⟩ | ⟨_, _, _, h⟩ | ⟨_, h, _⟩ | ⟨_, h, _⟩
          · rw [h] at h0; cases h0
          · exact h.symm
          · rw [h] at h1; cases h1
          · rw [h] at h1; cases h1
    · rw [e2, g2 v, hfs]
      constructor
      · rintro ⟨v', hv, hf⟩
        cases hl : b.lookup k with
        | none =>
          rw [hl] at hf
          simp only [fateGoneU] at hf
          split at hf
          · cases hf
          · next hc =>
            split at hf
            · next hh => injection hf with hf; subst hf; exact ⟨hv, hh, .inl ⟨rfl, by simpa using hc⟩⟩
            · cases hf
        | some w =>
          rw [hl] at hf
          simp only at hf
          rcases fate_of v' w hv hl with ⟨_, h⟩ | ⟨_, _, _, h⟩ | ⟨h0, h1, h2, h⟩ | ⟨_, _, _, _, _, h⟩ <;> rw [h] at hf <;>
            first | (cases hf; done) | skip
          injection hf with hf
          subst hf
          exact ⟨hv, h1, .inr ⟨w, rfl, h2, h0⟩⟩
      · rintro ⟨hv, hh, ⟨hn, hc⟩ | ⟨w, hw, h1, h0⟩⟩
        · exact ⟨v, hv, by rw [hn]; simp [fateGoneU, hc, hh]⟩
        · refine ⟨v, hv, ?_⟩
          rw [hw]
          simp only
          rcases fate_of v w hv hw with ⟨h, _⟩ | ⟨_, h, _⟩ | ⟨_, _, _, h⟩ | ⟨_, _, h, _⟩
          · rw [h] at h0; cases h0
          · rw [h] at hh; cases hh
          · exact h.symm
          · rw [h] at h1; cases h1
    · rw [e4, g4 vd, hfs]
      constructor
      · rintro ⟨v, hv, hf⟩
        cases hl : b.lookup k with
        | none =>
          rw [hl] at hf
          simp only [fateGoneU] at hf
          split at hf <;> first | (cases hf; done) | (split at hf <;> cases hf)
        | some w =>
          rw [hl] at hf
          simp only at hf
          rcases fate_of v w hv hl with ⟨_, h⟩ | ⟨_, _, _, h⟩ | ⟨_, _, _, h⟩ | ⟨_, h1, h2, vd', h3, h⟩ <;> rw [h] at hf <;>
            first | (cases hf; done) | skip
          injection hf with hf
          subst hf
          exact ⟨v, w, hv, h1, rfl, h2, h3⟩
      · rintro ⟨v, w, hv, h1, hw, h2, h3⟩
        refine ⟨v, hv, ?_⟩
        rw [hw]
        simp only
        rcases fate_of v w hv hw with ⟨h, h'⟩ | ⟨_, h, _⟩ | ⟨_, _, h, _⟩ | ⟨_, _, _, vd', h, h'⟩
        · rw [h3] at h'
          simp [fateU, isOutput_false (noOutputsKvs_mem ob k w (lookup_mem hw)), h1, h2] at h'
        · rw [h] at h1; cases h1
        · rw [h] at h2; cases h2
        · rw [h3] at h; injection h with h; subst h; exact h'.symm
  cases hd : mapDiffU hash a b with
  | none =>
    have hbt : between hash a b = ⟨[], [], [], []⟩ := by simp [between, hd]
    unfold mapDiffU finish at hd
    simp only at hd
    split at hd
    · next hc =>
      obtain ⟨c1, c2, c3⟩ := hc
      obtain ⟨r1, r2, r3⟩ := raw ⟨[], [], [], []⟩ c1.symm c2.symm c3.symm
      rw [hbt]
      refine ⟨r1, r2, r3, ?_, fun h => absurd rfl h⟩
      intro w hw
      cases hw
    · cases hd
  | some d =>
    have hbt : between hash a b = d := by simp [between, hd]
    obtain ⟨e1, e2, e3, e4⟩ := finish_some hd
    rw [hbt]
    obtain ⟨r1, r2, r3⟩ := raw d e1 e2 e4
    refine ⟨r1, r2, r3, fun w hm => ?_, fun _ v w hv hw he => ?_⟩
    · rw [e3, g3 w, hfs] at hm
      obtain ⟨v, hv, hf⟩ := hm
      cases hl : b.lookup k with
      | none =>
        rw [hl] at hf
        simp only [fateGoneU] at hf
        split at hf <;> first | (cases hf; done) | (split at hf <;> cases hf)
      | some w' =>
        rw [hl] at hf
        simp only at hf
        rcases fate_of v w' hv hl with ⟨_, h⟩ | ⟨_, _, _, h⟩ | ⟨_, _, _, h⟩ | ⟨_, _, _, _, _, h⟩ <;> rw [h] at hf <;>
          first | (cases hf; done) | skip
        injection hf with hf
        rw [hf]
    · rw [e3, g3 w, hfs]
      refine ⟨v, hv, ?_⟩
      rw [hw]
      simp only
      rcases fate_of v w hv hw with ⟨_, h⟩ | ⟨h, _⟩ | ⟨h, _⟩ | ⟨h, _⟩
      · exact h.symm
      all_goals rw [he] at h; cases h

/-! ## What equality up to unknown values is -/

theorem known_hasValue {v : EV} (h : Known v) (hn : v ≠ .null) : hasValue v = true := by
  cases h <;> first | rfl | exact absurd rfl hn

theorem known_at {a : List (String × EV)} (h : Known (.object a)) (k : String) : Known (valueAt a k) := by
  unfold valueAt
  cases hl : a.lookup k with
  | none => exact .null
  | some v => cases h with | object _ h => exact h k v (lookup_mem hl)

theorem noOutputs_at {a : List (String × EV)} (h : noOutputs (.object a) = true) (k : String) : noOutputs (valueAt a k) = true := by
  unfold valueAt
  cases hl : a.lookup k with
  | none => rfl
  | some v => simp only [noOutputs] at h; exact noOutputsKvs_mem h k v (lookup_mem hl)

theorem proper_at {a : List (String × EV)} (h : proper hash (.object a) = true) (k : String) : proper hash (valueAt a k) = true := by
  unfold valueAt
  cases hl : a.lookup k with
  | none => rfl
  | some v => exact (proper_object hash h).2 k v (lookup_mem hl)

theorem resolves_of_eqU : ∀ v w, proper hash v = true → proper hash w = true → noOutputs v = true → noOutputs w = true → Known w →
    eqU hash v w = true → Resolves hash v w := by
  intro v
  induction v using EV.parts with
  | array xs ih =>
    intro w pv pw ov ow kw h
    cases kw <;> first | (simp [eqU] at h; done) | skip
    next ys kw =>
    simp only [proper] at pv pw
    simp only [noOutputs] at ov ow
    obtain ⟨h1, h2⟩ := (eqU_array hash xs ys).mp h
    refine .array xs ys h1 (fun i x y hx hy => ?_)
    have mx := List.mem_of_getElem? hx
    have my := List.mem_of_getElem? hy
    exact ih x mx y (properList_mem hash pv x mx) (properList_mem hash pw y my) (noOutputsList_mem ov x mx) (noOutputsList_mem ow y my)
      (kw y my) (h2 i x y hx hy)
  | object a ih =>
    intro w pv pw ov ow kw h
    cases kw <;> first | (simp [eqU] at h; done) | skip
    next b kw =>
    obtain ⟨hna, hpa⟩ := proper_object hash pv
    obtain ⟨hnb, hpb⟩ := proper_object hash pw
    simp only [noOutputs] at ov ow
    obtain ⟨h1, h2⟩ := (eqU_object hash a b).mp h
    refine .object a b (fun k => ?_)
    unfold valueAt
    cases hx : a.lookup k with
    | some x =>
      have mx := lookup_mem hx
      have := h1 k x mx
      cases hy : b.lookup k with
      | some y =>
        rw [hy] at this
        have my := lookup_mem hy
        exact ih k x mx y (hpa k x mx) (hpb k y my) (noOutputsKvs_mem ov k x mx) (noOutputsKvs_mem ow k y my) (kw k y my) this
      | none =>
        rw [hy] at this
        rcases this with this | this
        · rw [no_value (noOutputsKvs_mem ov k x mx) this]
          exact .null
        · cases x <;> first | (cases this; done) | exact .unknown _ _
    | none =>
      cases hy : b.lookup k with
      | some y =>
        have my := lookup_mem hy
        rw [no_value (noOutputsKvs_mem ow k y my) (h2 k y my hx)]
        exact .null
      | none => exact .null
  | secret v ih =>
    intro w pv pw ov ow kw h
    cases kw <;> first | (simp [eqU] at h; done) | skip
    next w kw =>
    simp only [proper] at pv pw
    simp only [noOutputs] at ov ow
    simp only [eqU] at h
    exact .secret v w (ih w pv pw ov ow kw h)
  | blob b =>
    intro w pv pw ov ow kw h
    cases kw <;> first | (simp [eqU] at h; done) | skip
    next c =>
    simp only [eqU, blobEq, Bool.and_eq_true, beq_iff_eq] at h
    obtain ⟨h1, h2⟩ := h
    split at h2
    · next x y hx hy =>
      rw [of_decide_eq_true h2] at hx
      exact .blob b c y h1 hx hy
    · cases h2
  | computed e _ => intro w _ _ _ _ _ _; exact .unknown e w
  | ref u i v =>
    intro w pv pw ov ow kw h
    cases kw <;> first | (simp [eqU] at h; done) | skip
    next u' i' v' hi =>
    simp only [eqU, Bool.and_eq_true, Bool.or_eq_true, decide_eq_true_eq] at h
    rw [h.1]
    rcases h.2 with (h | h) | h
    · exact .ref _ _ _ _ _ (.inl h)
    · exact absurd h hi
    · exact .ref _ _ _ _ _ (.inr h)
  | output v k s d _ => intro w _ _ ov; simp only [noOutputs] at ov; cases ov
  | null => intro w _ _ _ _ kw h; cases kw <;> first | (simp [eqU] at h; done) | exact .null
  | bool b => intro w _ _ _ _ kw h; cases kw <;> simp [eqU] at h; rw [h]; exact .bool _
  | num b => intro w _ _ _ _ kw h; cases kw <;> simp [eqU] at h; rw [h]; exact .num _
  | str b => intro w _ _ _ _ kw h; cases kw <;> simp [eqU] at h; rw [h]; exact .str _

theorem eqU_of_resolves {v w : EV} (h : Resolves hash v w) : proper hash v = true → proper hash w = true → eqU hash v w = true := by
  induction h with
  | unknown e v => intro _ _; exact computed_eqU hash v e
  | null => intro _ _; simp [eqU]
  | bool b => intro _ _; simp [eqU]
  | num b => intro _ _; simp [eqU]
  | str b => intro _ _; simp [eqU]
  | array xs ys hl _ ih =>
    intro pv pw
    simp only [proper] at pv pw
    refine (eqU_array hash xs ys).mpr ⟨hl, fun i x y hx hy => ?_⟩
    exact ih i x y hx hy (properList_mem hash pv x (List.mem_of_getElem? hx)) (properList_mem hash pw y (List.mem_of_getElem? hy))
  | object a b hs ih =>
    intro pv pw
    obtain ⟨hna, hpa⟩ := proper_object hash pv
    obtain ⟨hnb, hpb⟩ := proper_object hash pw
    refine (eqU_object hash a b).mpr ⟨fun k x mx => ?_, fun k y my hx => ?_⟩
    · have hx := lookup_of_mem hna mx
      have hk := hs k
      have ihk := ih k
      unfold valueAt at hk ihk
      rw [hx] at hk ihk
      cases hy : b.lookup k with
      | some y =>
        rw [hy] at ihk
        exact ihk (hpa k x mx) (hpb k y (lookup_mem hy))
      | none =>
        rw [hy] at hk
        simp only [Option.getD_some, Option.getD_none] at hk
        cases hk
        · exact .inr rfl
        · exact .inl rfl
    · have hk := hs k
      have hy := lookup_of_mem hnb my
      unfold valueAt at hk
      rw [hx, hy] at hk
      simp only [Option.getD_some, Option.getD_none] at hk
      cases hk
      rfl
  | blob b c h h1 h2 h3 =>
    intro _ _
    simp [eqU, blobEq, h1, h2, h3]
  | secret v w _ ih =>
    intro pv pw
    simp only [proper] at pv pw
    simp only [eqU]
    exact ih pv pw
  | ref u i i' v v' h => intro _ _; rcases h with h | h <;> simp [eqU, h]

/-- A known value resolves to the same value only. -/
theorem same_of_resolves {v w : EV} (h : Resolves hash v w) : Known v → Same hash v w := by
  induction h with
  | unknown e v => intro k; cases k
  | null => intro _; exact .null
  | bool b => intro _; exact .bool b
  | num b => intro _; exact .num b
  | str b => intro _; exact .str b
  | array xs ys hl _ ih =>
    intro k
    cases k with | array _ k => exact .array xs ys hl (fun i x y hx hy => ih i x y hx hy (k x (List.mem_of_getElem? hx)))
  | object a b _ ih => intro k; exact .object a b (fun key => ih key (known_at k key))
  | blob b c h h1 h2 h3 => intro _; exact .blob b c h h1 h2 h3
  | secret v w _ ih => intro k; cases k with | secret _ k => exact .secret v w (ih k)
  | ref u i i' v v' h =>
    intro k
    cases k with | ref _ _ _ k => rcases h with h | h; exact absurd h k; rw [h]; exact .ref u i' v v'

/-- What is the same as a known value resolves to what is the same as it. -/
theorem resolves_same {v x : EV} (h : Same hash v x) : Known v → ∀ y, Resolves hash x y → Resolves hash v y := by
  induction h with
  | null => intro _ y hy; exact hy
  | bool b => intro _ y hy; exact hy
  | num b => intro _ y hy; exact hy
  | str b => intro _ y hy; exact hy
  | array xs xs' hl _ ih =>
    intro k y hy
    cases k with | array _ k =>
    cases hy with | array _ ys hl' h =>
    refine .array xs ys (hl.trans hl') (fun i x y hx hy => ?_)
    have hlt : i < xs'.length := by
      have := (List.getElem?_eq_some_iff.mp hx).1
      omega
    exact ih i x _ hx (List.getElem?_eq_getElem hlt) (k x (List.mem_of_getElem? hx)) y (h i _ y (List.getElem?_eq_getElem hlt) hy)
  | object a b _ ih =>
    intro k y hy
    cases hy with | object _ c h =>
    exact .object a c (fun key => ih key (known_at k key) _ (h key))
  | blob b c h h1 h2 h3 =>
    intro _ y hy
    cases hy with | blob _ d g g1 g2 g3 =>
    rw [g2] at h3
    injection h3 with h3
    exact .blob b d h (h1.trans g1) h2 (by rw [g3, h3])
  | computed e => intro k; cases k
  | secret v w _ ih =>
    intro k y hy
    cases k with | secret _ k =>
    cases hy with | secret _ w' h => exact .secret v w' (ih k _ h)
  | ref u i v v' =>
    intro k y hy
    cases k with | ref _ _ _ k =>
    cases hy with | ref _ _ i' _ w h =>
    exact .ref u i i' v w h

end Pulumi.Plan
