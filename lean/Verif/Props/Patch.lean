import Verif.Props.Diff
/-!
# What diffs say
-/
namespace Pulumi.Props
open Pulumi.Engine (EV Blob RefId)

variable (hash : Blob → Option String)

/-- Nothing is ignored. -/
abbrev nothing : String → Bool := fun _ => false

/-- A map has a value for a key. -/
def Present (m : List (String × EV)) (k : String) : Prop := ∃ v, m.lookup k = some v ∧ hasValue v = true

theorem mapDiff_some {ign : String → Bool} {a b : List (String × EV)} {d : ODiff} (h : mapDiff hash ign a b = some (some d)) :
    ∃ fs, diffKvs hash ign a b = some fs ∧ finish ign a b fs = some d := by
  unfold mapDiff at h
  cases hf : diffKvs hash ign a b with
  | none => rw [hf] at h; cases h
  | some fs =>
    rw [hf] at h
    simp only [Option.map_some, Option.some.injEq] at h
    exact ⟨fs, rfl, h⟩

theorem finish_some {ign : String → Bool} {a b : List (String × EV)} {fs : List (String × Fate)} {d : ODiff}
    (h : finish ign a b fs = some d) :
    d.adds = (gather fs).adds ++ b.filter (fun kw => !ign kw.1 && (a.lookup kw.1).isNone && hasValue kw.2) ∧
    d.dels = (gather fs).dels ∧ d.sames = (gather fs).sames ∧ d.ups = (gather fs).ups := by
  unfold finish at h
  simp only at h
  split at h
  · cases h
  · injection h with h
    rw [← h]
    exact ⟨rfl, rfl, rfl, rfl⟩

theorem diff_object_some {ign : String → Bool} {a b : List (String × EV)} {vd : VDiff}
    (h : diff hash ign (.object a) (.object b) = some (some vd)) :
    ∃ d, mapDiff hash ign a b = some (some d) ∧ vd = .obj (.object a) (.object b) d.adds d.dels d.sames d.ups := by
  simp only [diff] at h
  cases hf : diffKvs hash ign a b with
  | none => rw [hf] at h; cases h
  | some fs =>
    rw [hf] at h
    simp only [Option.some.injEq, Option.map_eq_some_iff] at h
    obtain ⟨d, hd, rfl⟩ := h
    exact ⟨d, by simp [mapDiff, hf, hd], rfl⟩

theorem isOutput_false {w : EV} (h : noOutputs w = true) : isOutput w = false := by
  cases w <;> simp_all [noOutputs, isOutput]

/-- C168: a diff says of every property, but those that are ignored, whether it was added, deleted or changed, and is right: added is
what has a value now and had none, deleted is what had a value and has none, and changed is what had a value and has another. -/
theorem diff_sorts (ign : String → Bool) (a b : List (String × EV)) (d : ODiff) (ha : proper hash (.object a) = true)
    (hb : proper hash (.object b) = true) (oa : noOutputs (.object a) = true) (ob : noOutputs (.object b) = true)
    (h : mapDiff hash ign a b = some (some d)) (k : String) :
    (∀ w, (k, w) ∈ d.adds ↔ ign k = false ∧ b.lookup k = some w ∧ hasValue w = true ∧ ¬ Present a k) ∧
    (∀ v, (k, v) ∈ d.dels ↔ ign k = false ∧ a.lookup k = some v ∧ hasValue v = true ∧ ¬ Present b k) ∧
    (∀ vd, (k, vd) ∈ d.ups ↔ ign k = false ∧ ∃ v w, a.lookup k = some v ∧ hasValue v = true ∧ b.lookup k = some w ∧ hasValue w = true ∧
      diff hash ign v w = some (some vd)) ∧
    (∀ v, (k, v) ∈ d.sames ↔ ign k = false ∧ a.lookup k = some v ∧ ∃ w, b.lookup k = some w ∧
      deepEq hash (strip ign v) (strip ign w) = some true) := by
  obtain ⟨hna, hpa⟩ := proper_object hash ha
  obtain ⟨hnb, hpb⟩ := proper_object hash hb
  simp only [noOutputs] at oa ob
  obtain ⟨fs, hfs, hfin⟩ := mapDiff_some hash h
  obtain ⟨e1, e2, e3, e4⟩ := finish_some hfin
  have hmem := mem_diffKvs hash ign b a fs hfs
  obtain ⟨g1, g2, g3, g4⟩ := mem_gather k fs
  -- a property both maps have
  have both : ∀ v w f, fate v w (diff hash ign v w) = some f → (k, v) ∈ a → (k, w) ∈ b →
      (f = .same v ∧ deepEq hash (strip ign v) (strip ign w) = some true) ∨
      (hasValue v = false ∧ hasValue w = true ∧ f = .add w) ∨ (hasValue v = true ∧ hasValue w = false ∧ f = .del v) ∨
      (hasValue v = true ∧ hasValue w = true ∧ ∃ vd, f = .up vd ∧ diff hash ign v w = some (some vd)) := by
    intro v w f hf hva hwb
    have now := noOutputsKvs_mem ob k w hwb
    have nov := noOutputsKvs_mem oa k v hva
    unfold fate at hf
    rw [isOutput_false now] at hf
    have hiff := no_diff_iff_equal hash v w ign (hpa k v hva) (hpb k w hwb) now
    cases hd : diff hash ign v w with
    | none => rw [hd] at hf; cases hf
    | some r =>
      rw [hd] at hf hiff
      cases r with
      | none => simp at hf; exact .inl ⟨hf.symm, hiff.mp rfl⟩
      | some vd =>
        simp only [Bool.false_eq_true, if_false] at hf
        cases hv : hasValue v with
        | false =>
          rw [hv] at hf
          simp at hf
          refine .inr (.inl ⟨rfl, ?_, hf.symm⟩)
          cases hw : hasValue w with
          | true => rfl
          | false =>
            have e := hiff.mpr (by rw [no_value nov hv, no_value now hw]; rfl)
            cases e
        | true =>
          rw [hv] at hf
          cases hw : hasValue w with
          | false => rw [hw] at hf; simp at hf; exact .inr (.inr (.inl ⟨rfl, rfl, hf.symm⟩))
          | true => rw [hw] at hf; simp at hf; exact .inr (.inr (.inr ⟨rfl, rfl, vd, hf.symm, rfl⟩))
  have some_fate : ∀ v w, (k, v) ∈ a → (k, w) ∈ b → ∃ f, fate v w (diff hash ign v w) = some f := by
    intro v w hva hwb
    obtain ⟨r, hr⟩ := diff_works hash v w ign (hpa k v hva)
    unfold fate
    rw [isOutput_false (noOutputsKvs_mem ob k w hwb), hr]
    cases r with
    | none => exact ⟨_, rfl⟩
    | some d =>
      simp only [Bool.false_eq_true, if_false]
      split
      · exact ⟨_, rfl⟩
      · split <;> exact ⟨_, rfl⟩
  refine ⟨fun w => ?_, fun v => ?_, fun vd => ?_, fun v => ?_⟩
  · rw [e1, List.mem_append, g1 w, hmem, List.mem_filter]
    constructor
    · rintro (⟨v, hva, hi, hf⟩ | ⟨hwb, hc⟩)
      · cases hl : b.lookup k with
        | none =>
          rw [hl] at hf
          simp only at hf
          unfold fateGone at hf
          split at hf <;> cases hf
        | some w' =>
          rw [hl] at hf
          simp only at hf
          have hwb := lookup_mem hl
          rcases both v w' _ hf hva hwb with ⟨h1, _⟩ | ⟨h1, h2, h3⟩ | ⟨_, _, h3⟩ | ⟨_, _, _, h3, _⟩
          · cases h1
          · injection h3 with h3
            subst h3
            refine ⟨hi, rfl, h2, ?_⟩
            rintro ⟨v', hv', hval⟩
            rw [lookup_of_mem hna hva] at hv'
            injection hv' with hv'
            rw [← hv', h1] at hval
            cases hval
          · cases h3
          · cases h3
      · simp only [Bool.and_eq_true, Bool.not_eq_true', Option.isNone_iff_eq_none] at hc
        refine ⟨hc.1.1, lookup_of_mem hnb hwb, hc.2, ?_⟩
        rintro ⟨v', hv', _⟩
        rw [hc.1.2] at hv'
        cases hv'
    · rintro ⟨hi, hl, hval, hnp⟩
      have hwb := lookup_mem hl
      cases hla : a.lookup k with
      | none => exact .inr ⟨hwb, by simp [hi, hval]⟩
      | some v =>
        have hva := lookup_mem hla
        obtain ⟨f, hf⟩ := some_fate v w hva hwb
        left
        refine ⟨v, hva, hi, ?_⟩
        rw [hl]
        have hvf : hasValue v = false := by
          cases hv : hasValue v with
          | false => rfl
          | true => exact absurd ⟨v, hla, hv⟩ hnp
        rcases both v w f hf hva hwb with ⟨h1, h2⟩ | ⟨h1, h2, h3⟩ | ⟨h1, _, _⟩ | ⟨h1, _, _⟩
        · rw [no_value (noOutputsKvs_mem oa k v hva) hvf] at h2
          have := null_equal hash h2
          rw [← hasValue_strip ign w, this] at hval
          cases hval
        · simp only; rw [hf, h3]
        · rw [hvf] at h1; cases h1
        · rw [hvf] at h1; cases h1
  · rw [e2, g2 v, hmem]
    constructor
    · rintro ⟨v', hva, hi, hf⟩
      cases hl : b.lookup k with
      | none =>
        rw [hl] at hf
        simp only at hf
        unfold fateGone at hf
        split at hf
        · next hv =>
          injection hf with hf
          subst hf
          exact ⟨hi, lookup_of_mem hna hva, hv, by rintro ⟨w, hw, _⟩; rw [hl] at hw; cases hw⟩
        · cases hf
      | some w =>
        rw [hl] at hf
        simp only at hf
        rcases both v' w _ hf hva (lookup_mem hl) with ⟨h1, _⟩ | ⟨h1, h2, h3⟩ | ⟨h1, h2, h3⟩ | ⟨_, _, _, h3, _⟩
        · cases h1
        · cases h3
        · injection h3 with h3
          subst h3
          refine ⟨hi, lookup_of_mem hna hva, h1, ?_⟩
          rintro ⟨w', hw', hval⟩
          rw [hl] at hw'
          injection hw' with hw'
          rw [← hw', h2] at hval
          cases hval
        · cases h3
    · rintro ⟨hi, hla, hval, hnp⟩
      have hva := lookup_mem hla
      refine ⟨v, hva, hi, ?_⟩
      cases hl : b.lookup k with
      | none => simp only [fateGone, hval, if_true]
      | some w =>
        have hwb := lookup_mem hl
        have hwf : hasValue w = false := by
          cases hw : hasValue w with
          | false => rfl
          | true => exact absurd ⟨w, hl, hw⟩ hnp
        obtain ⟨f, hf⟩ := some_fate v w hva hwb
        rcases both v w f hf hva hwb with ⟨h1, h2⟩ | ⟨h1, _, _⟩ | ⟨_, _, h3⟩ | ⟨_, h2, _⟩
        · rw [no_value (noOutputsKvs_mem ob k w hwb) hwf] at h2
          have := equal_null hash h2
          rw [← hasValue_strip ign v, this] at hval
          cases hval
        · rw [hval] at h1; cases h1
        · simp only; rw [hf, h3]
        · rw [hwf] at h2; cases h2
  · rw [e4, g4 vd, hmem]
    constructor
    · rintro ⟨v, hva, hi, hf⟩
      cases hl : b.lookup k with
      | none =>
        rw [hl] at hf
        simp only at hf
        unfold fateGone at hf
        split at hf <;> cases hf
      | some w =>
        rw [hl] at hf
        simp only at hf
        rcases both v w _ hf hva (lookup_mem hl) with ⟨h1, _⟩ | ⟨_, _, h3⟩ | ⟨_, _, h3⟩ | ⟨h1, h2, vd', h3, h4⟩
        · cases h1
        · cases h3
        · cases h3
        · injection h3 with h3
          subst h3
          exact ⟨hi, v, w, lookup_of_mem hna hva, h1, rfl, h2, h4⟩
    · rintro ⟨hi, v, w, hla, hv, hl, hw, hd⟩
      refine ⟨v, lookup_mem hla, hi, ?_⟩
      rw [hl]
      simp only [fate, isOutput_false (noOutputsKvs_mem ob k w (lookup_mem hl)), hd, hv, hw]
      simp
  · rw [e3, g3 v, hmem]
    constructor
    · rintro ⟨v', hva, hi, hf⟩
      cases hl : b.lookup k with
      | none =>
        rw [hl] at hf
        simp only at hf
        unfold fateGone at hf
        split at hf <;> cases hf
      | some w =>
        rw [hl] at hf
        simp only at hf
        rcases both v' w _ hf hva (lookup_mem hl) with ⟨h1, h2⟩ | ⟨_, _, h3⟩ | ⟨_, _, h3⟩ | ⟨_, _, _, h3, _⟩
        · injection h1 with h1
          subst h1
          exact ⟨hi, lookup_of_mem hna hva, w, rfl, h2⟩
        · cases h3
        · cases h3
        · cases h3
    · rintro ⟨hi, hla, w, hl, he⟩
      refine ⟨v, lookup_mem hla, hi, ?_⟩
      rw [hl]
      have hwb := lookup_mem hl
      have := (no_diff_iff_equal hash v w ign (hpa k v (lookup_mem hla)) (hpb k w hwb) (noOutputsKvs_mem ob k w hwb)).mpr he
      simp only [fate, isOutput_false (noOutputsKvs_mem ob k w hwb), this]
      simp

/-! ## A diff makes the new value of the old one -/

theorem modify_middle (f : EV → EV) (x : EV) (post : List EV) : ∀ pre : List EV,
    (pre ++ x :: post).modify pre.length f = pre ++ f x :: post
  | [] => rfl
  | p :: pre => by
    simp only [List.cons_append, List.length_cons, List.modify_succ_cons]
    rw [modify_middle f x post pre]

theorem patchIdx_pre : ∀ (ys : List EV) (xs pre : List EV) (sames : List (Nat × EV)) (ups : List (Nat × VDiff)),
    (∀ x y d, x ∈ xs → y ∈ ys → diff hash nothing x y = some (some d) → deepEq hash (patch d x) y = some true) →
    (∀ x y, x ∈ xs → y ∈ ys → diff hash nothing x y = some none → deepEq hash x y = some true) →
    diffList hash pre.length xs ys = some (sames, ups) →
    ∃ zs, patchIdx ups (pre ++ xs.take ys.length) = pre ++ zs ∧ zs.length = min xs.length ys.length ∧
      ∀ (j : Nat) (z y : EV), zs[j]? = some z → ys[j]? = some y → deepEq hash z y = some true := by
  intro ys
  induction ys with
  | nil =>
    intro xs pre sames ups _ _ h
    cases xs with
    | nil =>
      simp only [diffList, Option.some.injEq, Prod.mk.injEq] at h
      rw [← h.2]
      exact ⟨[], by simp [patchIdx], by simp, by simp⟩
    | cons x xs =>
      simp only [diffList, Option.some.injEq, Prod.mk.injEq] at h
      rw [← h.2]
      exact ⟨[], by simp [patchIdx], by simp, by simp⟩
  | cons y ys ih =>
    intro xs pre sames ups hd hn h
    cases xs with
    | nil =>
      simp only [diffList, Option.some.injEq, Prod.mk.injEq] at h
      rw [← h.2]
      exact ⟨[], by simp [patchIdx], by simp, by simp⟩
    | cons x xs =>
      simp only [diffList] at h
      have next : ∀ (u : EV) (s' : List (Nat × EV)) (u' : List (Nat × VDiff)), diffList hash (pre.length + 1) xs ys = some (s', u') →
          deepEq hash u y = some true → ∃ zs, patchIdx u' (pre ++ u :: xs.take ys.length) = pre ++ zs ∧
            zs.length = min (xs.length + 1) (ys.length + 1) ∧
            ∀ (j : Nat) (z y' : EV), zs[j]? = some z → (y :: ys)[j]? = some y' → deepEq hash z y' = some true := by
        intro u s' u' hl hu
        obtain ⟨zs, h1, h2, h3⟩ := ih xs (pre ++ [u]) s' u'
          (fun x y d hx hy => hd x y d (List.mem_cons_of_mem _ hx) (List.mem_cons_of_mem _ hy))
          (fun x y hx hy => hn x y (List.mem_cons_of_mem _ hx) (List.mem_cons_of_mem _ hy)) (by simpa using hl)
        refine ⟨u :: zs, ?_, by simp [h2], ?_⟩
        · simpa using h1
        · intro j z y' hz hy
          cases j with
          | zero => simp at hz hy; rw [← hz, ← hy]; exact hu
          | succ j => simp at hz hy; exact h3 j z y' hz hy
      cases hl : diffList hash (pre.length + 1) xs ys with
      | none => rw [hl] at h; cases hdd : diff hash (fun _ => false) x y <;> simp [hdd] at h
      | some su =>
        obtain ⟨s', u'⟩ := su
        cases hdd : diff hash (fun _ => false) x y with
        | none => rw [hdd] at h; simp at h
        | some r =>
          rw [hl, hdd] at h
          cases r with
          | none =>
            simp only [Option.some.injEq, Prod.mk.injEq] at h
            rw [← h.2]
            obtain ⟨zs, h1, h2, h3⟩ := next x s' u' hl (hn x y List.mem_cons_self List.mem_cons_self hdd)
            exact ⟨zs, by simpa using h1, by simpa using h2, h3⟩
          | some d =>
            simp only [Option.some.injEq, Prod.mk.injEq] at h
            rw [← h.2]
            obtain ⟨zs, h1, h2, h3⟩ := next (patch d x) s' u' hl (hd x y d List.mem_cons_self List.mem_cons_self hdd)
            refine ⟨zs, ?_, by simpa using h2, h3⟩
            simp only [patchIdx]
            rw [← h1]
            rw [show (x :: xs).take (y :: ys).length = x :: xs.take ys.length from rfl, modify_middle]

theorem mem_patchKey : ∀ (ups : List (String × VDiff)) (a : List (String × EV)), (ups.map (·.1)).Nodup → ∀ k v',
    (k, v') ∈ patchKey ups a ↔ ∃ v, (k, v) ∈ a ∧ v' = (match ups.lookup k with | some d => patch d v | none => v) := by
  intro ups
  induction ups with
  | nil => intro a _ k v'; simp [patchKey]
  | cons kd ups ih =>
    intro a hn k v'
    obtain ⟨k₀, d⟩ := kd
    simp only [List.map_cons, List.nodup_cons] at hn
    simp only [patchKey]
    rw [ih _ hn.2]
    rw [List.lookup_cons]
    by_cases hk : k = k₀
    · subst hk
      simp only [beq_self_eq_true]
      have hnone : ups.lookup k = none := lookup_none_iff.mpr hn.1
      rw [hnone]
      simp only
      constructor
      · rintro ⟨v, hm, rfl⟩
        obtain ⟨kv, hkv, he⟩ := List.mem_map.mp hm
        obtain ⟨k', u⟩ := kv
        simp only at he
        split at he
        · next hk' => injection he with _ he; subst hk'; exact ⟨u, hkv, he.symm⟩
        · next hk' => injection he with h1 h2; exact absurd h1 hk'
      · rintro ⟨v, hm, rfl⟩
        exact ⟨patch d v, List.mem_map.mpr ⟨(k, v), hm, by simp⟩, rfl⟩
    · have : (k == k₀) = false := by simpa using hk
      rw [this]
      have hiff : ∀ v, (k, v) ∈ a.map (fun kv => if kv.1 = k₀ then (k₀, patch d kv.2) else kv) ↔ (k, v) ∈ a := by
        intro v
        rw [List.mem_map]
        constructor
        · rintro ⟨⟨k', u⟩, hkv, he⟩
          simp only at he
          split at he
          · injection he with h1 _; exact absurd h1.symm hk
          · rw [← he]; exact hkv
        · intro hm
          exact ⟨(k, v), hm, by simp [hk]⟩
      simp only [hiff]

theorem past_length (n : Nat) (xs : List EV) : (past n xs).length = xs.length - n := by simp [past]

theorem past_values (n : Nat) (xs : List EV) : (past n xs).map (·.2) = xs.drop n := by
  simp [past, Function.comp_def]

/-- C167: what was added, deleted and changed, done to the old value, makes the new one. -/
theorem diff_patches : ∀ (v w : EV) (d : VDiff), proper hash v = true → proper hash w = true → noOutputs v = true → noOutputs w = true →
    diff hash nothing v w = some (some d) → deepEq hash (patch d v) w = some true := by
  intro v
  have leaf : ∀ (v w : EV) (d : VDiff), proper hash w = true → (∀ xs ys, v = .array xs → w = .array ys → False) →
      (∀ a b, v = .object a → w = .object b → False) → diff hash nothing v w = some (some d) → deepEq hash (patch d v) w = some true := by
    intro v w d hw h1 h2 h
    rw [diff_leaf hash nothing v w h1 h2] at h
    split at h
    · cases h
    · cases h
    · simp only [Option.some.injEq] at h
      rw [← h]
      simp only [patch]
      exact equal_refl hash w hw
  induction v using EV.parts with
  | array xs ih =>
    intro w d hv hw ov ow h
    cases w with
    | array ys =>
      simp only [proper] at hv hw
      simp only [noOutputs] at ov ow
      simp only [diff] at h
      split at h
      · cases h
      · next sames ups hl =>
        split at h
        · cases h
        · simp only [Option.some.injEq] at h
          rw [← h]
          simp only [patch]
          obtain ⟨zs, h1, h2, h3⟩ := patchIdx_pre hash ys xs [] sames ups
            (fun x y d hx hy hd => ih x hx y d (properList_mem hash hv x hx) (properList_mem hash hw y hy) (noOutputsList_mem ov x hx)
              (noOutputsList_mem ow y hy) hd)
            (fun x y hx hy hd => by
              have := (no_diff_iff_equal hash x y nothing (properList_mem hash hv x hx) (properList_mem hash hw y hy)
                (noOutputsList_mem ow y hy)).mp hd
              rwa [strip_nothing, strip_nothing] at this) hl
          simp only [List.nil_append] at h1
          have htake : xs.take (xs.length - (past ys.length xs).length) = xs.take ys.length := by
            rw [past_length]
            rw [List.take_eq_take_iff]
            omega
          rw [htake, h1, past_values]
          rw [deepEq_array]
          have hlen : (zs ++ ys.drop xs.length).length = ys.length := by
            simp [h2]; omega
          refine ⟨hlen, fun i z y hz hy => ?_⟩
          by_cases hi : i < zs.length
          · rw [List.getElem?_append_left hi] at hz
            exact h3 i z y hz hy
          · rw [List.getElem?_append_right (by omega)] at hz
            have hxl : zs.length = xs.length := by
              have hiy := (List.getElem?_eq_some_iff.mp hy).1
              omega
            rw [List.getElem?_drop, hxl] at hz
            have : xs.length + (i - xs.length) = i := by omega
            rw [this, hy] at hz
            injection hz with hz
            rw [← hz]
            exact equal_refl hash y (properList_mem hash hw y (List.mem_of_getElem? hy))
    | _ => exact leaf _ _ d hw (by intro _ _ _ h; cases h) (by intro _ _ h; cases h) h
  | object a ih =>
    intro w d hv hw ov ow h
    cases w with
    | object b =>
      obtain ⟨od, hod, rfl⟩ := diff_object_some hash h
      obtain ⟨fs, hfs, hfin⟩ := mapDiff_some hash hod
      obtain ⟨_, _, _, e4⟩ := finish_some hfin
      obtain ⟨hna, hpa⟩ := proper_object hash hv
      obtain ⟨hnb, hpb⟩ := proper_object hash hw
      have hups : (od.ups.map (·.1)).Nodup := by
        rw [e4]
        exact ((ups_sublist fs).trans (keys_diffKvs hash nothing b a fs hfs)).nodup hna
      have sorts := fun k => diff_sorts hash nothing a b od hv hw ov ow hod k
      simp only [noOutputs] at ov ow
      simp only [patch]
      rw [deepEq_object]
      refine ⟨fun k v' hm => ?_, fun k w hm hnone => ?_⟩
      · obtain ⟨s1, s2, s3, s4⟩ := sorts k
        rcases List.mem_append.mp hm with hm | hm
        · obtain ⟨v, hvf, hv'⟩ := (mem_patchKey od.ups _ hups k v').mp hm
          rw [List.mem_filter] at hvf
          obtain ⟨hva, hc⟩ := hvf
          simp only [Bool.and_eq_true, decide_eq_true_eq] at hc
          obtain ⟨hnd, hnad⟩ := hc
          have hla := lookup_of_mem hna hva
          have notdel : ¬ (hasValue v = true ∧ ¬ Present b k) := fun hx =>
            hnd (List.mem_map.mpr ⟨(k, v), (s2 v).mpr ⟨rfl, hla, hx.1, hx.2⟩, rfl⟩)
          cases hl : b.lookup k with
          | some w =>
            simp only
            have hwb := lookup_mem hl
            have notadd : ¬ (hasValue w = true ∧ ¬ Present a k) := fun hx =>
              hnad (List.mem_map.mpr ⟨(k, w), (s1 w).mpr ⟨rfl, hl, hx.1, hx.2⟩, rfl⟩)
            obtain ⟨r, hr⟩ := diff_works hash v w nothing (hpa k v hva)
            have hiff := no_diff_iff_equal hash v w nothing (hpa k v hva) (hpb k w hwb) (noOutputsKvs_mem ow k w hwb)
            rw [strip_nothing, strip_nothing] at hiff
            have pw : ∀ w', b.lookup k = some w' → w' = w := by intro w' h'; rw [hl] at h'; injection h' with h'; exact h'.symm
            have pv : ∀ v'', a.lookup k = some v'' → v'' = v := by intro w' h'; rw [hla] at h'; injection h' with h'; exact h'.symm
            cases hvv : hasValue v with
            | true =>
              have hww : hasValue w = true := by
                cases hww : hasValue w with
                | true => rfl
                | false =>
                  refine absurd ⟨hvv, ?_⟩ notdel
                  rintro ⟨w', h1, h2⟩
                  rw [pw w' h1, hww] at h2; cases h2
              cases r with
              | some vd =>
                have hup := (s3 vd).mpr ⟨rfl, v, w, hla, hvv, hl, hww, hr⟩
                rw [lookup_of_mem hups hup] at hv'
                rw [hv']
                exact ih k v hva w vd (hpa k v hva) (hpb k w hwb) (noOutputsKvs_mem ov k v hva) (noOutputsKvs_mem ow k w hwb) hr
              | none =>
                have hnoup : od.ups.lookup k = none := by
                  cases hlu : od.ups.lookup k with
                  | none => rfl
                  | some vd =>
                    obtain ⟨_, v₁, w₁, a1, _, a2, _, a3⟩ := (s3 vd).mp (lookup_mem hlu)
                    rw [pv v₁ a1, pw w₁ a2, hr] at a3
                    cases a3
                rw [hnoup] at hv'
                rw [hv']
                exact hiff.mp hr
            | false =>
              have hww : hasValue w = false := by
                cases hww : hasValue w with
                | false => rfl
                | true =>
                  refine absurd ⟨hww, ?_⟩ notadd
                  rintro ⟨w', h1, h2⟩
                  rw [pv w' h1, hvv] at h2; cases h2
              have hnoup : od.ups.lookup k = none := by
                cases hlu : od.ups.lookup k with
                | none => rfl
                | some vd =>
                  obtain ⟨_, v₁, w₁, a1, a4, _⟩ := (s3 vd).mp (lookup_mem hlu)
                  rw [pv v₁ a1, hvv] at a4
                  cases a4
              rw [hnoup] at hv'
              rw [hv', no_value (noOutputsKvs_mem ov k v hva) hvv, no_value (noOutputsKvs_mem ow k w hwb) hww]
              rfl
          | none =>
            simp only
            have hnb' : ¬ Present b k := by rintro ⟨w', h1, _⟩; rw [hl] at h1; cases h1
            have hvv : hasValue v = false := by
              cases hvv : hasValue v with
              | false => rfl
              | true => exact absurd ⟨hvv, hnb'⟩ notdel
            have hnoup : od.ups.lookup k = none := by
              cases hlu : od.ups.lookup k with
              | none => rfl
              | some vd =>
                obtain ⟨_, v₁, w₁, a1, a4, a2, _⟩ := (s3 vd).mp (lookup_mem hlu)
                rw [hl] at a2
                cases a2
            rw [hnoup] at hv'
            rw [hv']
            exact hvv
        · obtain ⟨_, hl, _, _⟩ := (s1 v').mp hm
          rw [hl]
          exact equal_refl hash v' (hpb k v' (lookup_mem hl))
      · obtain ⟨s1, s2, s3, s4⟩ := sorts k
        have hl := lookup_of_mem hnb hm
        cases hww : hasValue w with
        | false => rfl
        | true =>
          exfalso
          rw [lookup_none_iff] at hnone
          simp only [List.map_append, List.mem_append, not_or] at hnone
          obtain ⟨n1, n2⟩ := hnone
          have hpa' : Present a k := by
            apply Classical.byContradiction
            intro hx
            exact n2 (List.mem_map.mpr ⟨(k, w), (s1 w).mpr ⟨rfl, hl, hww, hx⟩, rfl⟩)
          obtain ⟨v, hla, hvv⟩ := hpa'
          have hva := lookup_mem hla
          have hin : (k, v) ∈ a.filter (fun kv => decide (kv.1 ∉ od.dels.map (·.1)) && decide (kv.1 ∉ od.adds.map (·.1))) := by
            rw [List.mem_filter]
            refine ⟨hva, ?_⟩
            simp only [Bool.and_eq_true, decide_eq_true_eq]
            refine ⟨fun hx => ?_, n2⟩
            obtain ⟨⟨k', v''⟩, hx1, hx2⟩ := List.mem_map.mp hx
            simp only at hx2
            subst hx2
            exact ((s2 v'').mp hx1).2.2.2 ⟨w, hl, hww⟩
          exact n1 (List.mem_map.mpr ⟨(k, _), (mem_patchKey od.ups _ hups k _).mpr ⟨v, hin, rfl⟩, rfl⟩)
    | _ => exact leaf _ _ d hw (by intro _ _ h; cases h) (by intro _ _ _ h; cases h) h
  | _ => intro w d _ hw _ _ h; exact leaf _ _ d hw (by intro _ _ h; cases h) (by intro _ _ h; cases h) h

end Pulumi.Props
