import Verif.Props.Spec
/-!
# Equality of property values
-/
namespace Pulumi.Props
open Pulumi.Engine (EV Blob RefId)

variable (hash : Blob → Option String)

theorem lookup_mem {α : Type} {k : String} {v : α} : ∀ {a : List (String × α)}, a.lookup k = some v → (k, v) ∈ a
  | [], h => by simp at h
  | (k', v') :: rest, h => by
    rw [List.lookup_cons] at h
    by_cases hk : k == k'
    · rw [hk] at h
      simp at h hk
      rw [hk, h]; exact List.mem_cons_self
    · simp [hk] at h
      exact List.mem_cons_of_mem _ (lookup_mem h)

theorem lookup_of_mem {α : Type} {k : String} {v : α} : ∀ {a : List (String × α)}, (a.map (·.1)).Nodup → (k, v) ∈ a →
    a.lookup k = some v
  | [], _, h => by simp at h
  | (k', v') :: rest, hn, h => by
    rw [List.lookup_cons]
    simp only [List.map_cons, List.nodup_cons] at hn
    rcases List.mem_cons.mp h with h | h
    · injection h with h1 h2
      simp [h1, h2]
    · have hne : k ≠ k' := fun he => hn.1 (he ▸ List.mem_map.mpr ⟨_, h, rfl⟩)
      have : (k == k') = false := by simpa using hne
      rw [this]
      exact lookup_of_mem hn.2 h

theorem lookup_none_iff {α : Type} {k : String} : ∀ {a : List (String × α)}, a.lookup k = none ↔ k ∉ a.map (·.1)
  | [] => by simp
  | (k', v') :: rest => by
    rw [List.lookup_cons]
    by_cases hk : k = k'
    · simp [hk]
    · have : (k == k') = false := by simpa using hk
      rw [this]
      simp only [List.map_cons, List.mem_cons, not_or]
      rw [lookup_none_iff (a := rest)]
      exact ⟨fun h => ⟨hk, h⟩, fun h => h.2⟩

theorem eqKvs_true : ∀ (a b : List (String × EV)), eqKvs hash a b = some true ↔
    ∀ k v, (k, v) ∈ a → match b.lookup k with
      | some w => deepEq hash v w = some true
      | none => hasValue v = false
  | [], b => by simp [eqKvs]
  | (k, v) :: rest, b => by
    have ih := eqKvs_true rest b
    simp only [eqKvs]
    constructor
    · intro h k' v' hm
      cases hb : b.lookup k with
      | some w =>
        rw [hb] at h
        simp only at h
        split at h
        · next hd =>
          rcases List.mem_cons.mp hm with hm | hm
          · injection hm with h1 h2
            subst h1; subst h2
            rw [hb]; exact hd
          · exact ih.mp h _ _ hm
        · next r hr => rw [h] at hr; exact absurd rfl hr
      | none =>
        rw [hb] at h
        simp only at h
        split at h
        · cases h
        · next hv =>
          rcases List.mem_cons.mp hm with hm | hm
          · injection hm with h1 h2
            subst h1; subst h2
            rw [hb]; simpa using hv
          · exact ih.mp h _ _ hm
    · intro h
      have h0 := h k v List.mem_cons_self
      have h1 := ih.mpr (fun k' v' hm => h k' v' (List.mem_cons_of_mem _ hm))
      cases hb : b.lookup k with
      | some w => rw [hb] at h0; simp only at h0 ⊢; rw [h0]; exact h1
      | none => rw [hb] at h0; simp only at h0 ⊢; rw [h0]; simpa using h1

theorem eqList_true : ∀ (xs ys : List EV), xs.length = ys.length → (eqList hash xs ys = some true ↔
    ∀ (i : Nat) (x y : EV), xs[i]? = some x → ys[i]? = some y → deepEq hash x y = some true)
  | [], ys, _ => by simp [eqList]
  | x :: xs, [], h => by simp at h
  | x :: xs, y :: ys, hl => by
    have ih := eqList_true xs ys (by simpa using hl)
    simp only [eqList]
    constructor
    · intro h i x' y' hx hy
      split at h
      · next hd =>
        cases i with
        | zero => simp at hx hy; rw [← hx, ← hy]; exact hd
        | succ i => simp at hx hy; exact ih.mp h i x' y' hx hy
      · next r hr => rw [h] at hr; exact absurd rfl hr
    · intro h
      rw [h 0 x y rfl rfl]
      exact ih.mpr (fun i x' y' hx hy => h (i + 1) x' y' (by simpa using hx) (by simpa using hy))

theorem deepEq_array (xs ys : List EV) : deepEq hash (.array xs) (.array ys) = some true ↔
    xs.length = ys.length ∧ ∀ (i : Nat) (x y : EV), xs[i]? = some x → ys[i]? = some y → deepEq hash x y = some true := by
  simp only [deepEq]
  by_cases h : xs.length = ys.length
  · simp only [h, ne_eq, not_true_eq_false, if_false, true_and]
    exact eqList_true hash xs ys h
  · simp [h]

theorem deepEq_object (a b : List (String × EV)) : deepEq hash (.object a) (.object b) = some true ↔
    (∀ k v, (k, v) ∈ a → match b.lookup k with
      | some w => deepEq hash v w = some true
      | none => hasValue v = false) ∧
    ∀ k w, (k, w) ∈ b → a.lookup k = none → hasValue w = false := by
  simp only [deepEq]
  rw [← eqKvs_true]
  constructor
  · intro h
    split at h
    · next he =>
      refine ⟨he, fun k w hm hn => ?_⟩
      injection h with h
      rw [List.all_eq_true] at h
      have := h _ hm
      simpa [hn] using this
    · next r hr => rw [h] at hr; exact absurd rfl hr
  · intro ⟨h1, h2⟩
    rw [h1]
    simp only [Option.some.injEq, List.all_eq_true]
    intro kw hm
    cases hl : a.lookup kw.1 with
    | none => simpa [hl] using h2 kw.1 kw.2 hm hl
    | some _ => simp

theorem properList_mem {xs : List EV} (h : properList hash xs = true) : ∀ x ∈ xs, proper hash x = true := by
  induction xs with
  | nil => simp
  | cons y ys ih =>
    simp only [properList, Bool.and_eq_true] at h
    intro x hx
    rcases List.mem_cons.mp hx with rfl | hx
    · exact h.1
    · exact ih h.2 x hx

theorem properKvs_mem {a : List (String × EV)} (h : properKvs hash a = true) : ∀ k v, (k, v) ∈ a → proper hash v = true := by
  induction a with
  | nil => simp
  | cons y ys ih =>
    obtain ⟨k', v'⟩ := y
    simp only [properKvs, Bool.and_eq_true] at h
    intro k v hx
    rcases List.mem_cons.mp hx with hx | hx
    · injection hx with _ hx; rw [hx]; exact h.1
    · exact ih h.2 k v hx

theorem noOutputsList_mem {xs : List EV} (h : noOutputsList xs = true) : ∀ x ∈ xs, noOutputs x = true := by
  induction xs with
  | nil => simp
  | cons y ys ih =>
    simp only [noOutputsList, Bool.and_eq_true] at h
    intro x hx
    rcases List.mem_cons.mp hx with rfl | hx
    · exact h.1
    · exact ih h.2 x hx

theorem noOutputsKvs_mem {a : List (String × EV)} (h : noOutputsKvs a = true) : ∀ k v, (k, v) ∈ a → noOutputs v = true := by
  induction a with
  | nil => simp
  | cons y ys ih =>
    obtain ⟨k', v'⟩ := y
    simp only [noOutputsKvs, Bool.and_eq_true] at h
    intro k v hx
    rcases List.mem_cons.mp hx with hx | hx
    · injection hx with _ hx; rw [hx]; exact h.1
    · exact ih h.2 k v hx

theorem proper_object {a : List (String × EV)} (h : proper hash (.object a) = true) :
    (a.map (·.1)).Nodup ∧ ∀ k v, (k, v) ∈ a → proper hash v = true := by
  simp only [proper, Bool.and_eq_true, decide_eq_true_eq] at h
  exact ⟨h.1, properKvs_mem hash h.2⟩

/-- Values from their parts: to prove something of all values, prove it of each, given it of the elements of arrays, the values of
objects and what secrets and outputs hold. -/
theorem EV.parts {P : EV → Prop} (null : P .null) (bool : ∀ b, P (.bool b)) (num : ∀ n, P (.num n)) (str : ∀ s, P (.str s))
    (array : ∀ xs, (∀ x ∈ xs, P x) → P (.array xs)) (object : ∀ a, (∀ k v, (k, v) ∈ a → P v) → P (.object a))
    (blob : ∀ b, P (.blob b)) (computed : ∀ e, P e → P (.computed e)) (secret : ∀ v, P v → P (.secret v))
    (ref : ∀ u i v, P (.ref u i v)) (output : ∀ v k s d, P v → P (.output v k s d)) : ∀ v, P v := by
  intro v
  exact EV.rec (motive_1 := P) (motive_2 := fun xs => ∀ x ∈ xs, P x) (motive_3 := fun a => ∀ k v, (k, v) ∈ a → P v)
    (motive_4 := fun p => P p.2) null bool num str (fun xs h => array xs h) (fun a h => object a h) blob (fun e h => computed e h)
    (fun v h => secret v h) ref (fun v k s d h => output v k s d h) (by simp)
    (fun x xs h1 h2 y hy => by exact (List.mem_cons.mp hy).elim (fun e => e ▸ h1) (fun hy => h2 y hy)) (by simp)
    (fun p a h1 h2 k v hm => by
      rcases List.mem_cons.mp hm with hm | hm
      · rw [← hm] at h1; exact h1
      · exact h2 k v hm)
    (fun k v h => h) v

/-! ## The laws of equality -/

theorem goEq_refl : ∀ e, flat e = true → goEq e e = some true := by
  intro e
  induction e using EV.parts with
  | null => intro _; rfl
  | bool b => intro _; simp [goEq]
  | num b => intro _; simp [goEq]
  | str b => intro _; simp [goEq]
  | array xs _ => intro h; simp [flat] at h
  | object a _ => intro h; simp [flat] at h
  | blob b => intro h; simp [flat] at h
  | computed e ih => intro h; simp only [flat] at h; simp only [goEq]; exact ih h
  | secret v _ => intro h; simp [flat] at h
  | ref u i v => intro _; simp [goEq]
  | output v k s d _ => intro h; simp [flat] at h

theorem goEq_total : ∀ e e', flat e = true → ∃ r, goEq e e' = some r := by
  intro e
  induction e using EV.parts with
  | computed e ih =>
    intro e' h
    simp only [flat] at h
    cases e' <;> simp only [goEq] <;> first | exact ⟨_, rfl⟩ | exact ih _ h
  | array xs _ => intro _ h; simp [flat] at h
  | object a _ => intro _ h; simp [flat] at h
  | blob b => intro _ h; simp [flat] at h
  | secret v _ => intro _ h; simp [flat] at h
  | output v k s d _ => intro _ h; simp [flat] at h
  | null => intro e' _; cases e' <;> exact ⟨_, rfl⟩
  | bool b => intro e' _; cases e' <;> exact ⟨_, rfl⟩
  | num b => intro e' _; cases e' <;> exact ⟨_, rfl⟩
  | str b => intro e' _; cases e' <;> exact ⟨_, rfl⟩
  | ref u i v => intro e' _; cases e' <;> exact ⟨_, rfl⟩

theorem goEq_eq : ∀ e e', goEq e e' = some true → e = e' := by
  intro e
  induction e using EV.parts with
  | computed e ih =>
    intro e' h
    cases e' <;> simp [goEq] at h
    rw [ih _ h]
  | _ => intro e' h; cases e' <;> simp_all [goEq]

theorem blobEq_refl (b : Blob) (h : (hash b).isSome = true) : blobEq hash b b = true := by
  unfold blobEq
  cases hb : hash b with
  | none => rw [hb] at h; cases h
  | some x => simp

theorem blobEq_symm (a b : Blob) : blobEq hash a b = blobEq hash b a := by
  unfold blobEq
  cases hash a <;> cases hash b <;> simp [Bool.beq_comm, eq_comm]

theorem blobEq_trans (a b c : Blob) (h1 : blobEq hash a b = true) (h2 : blobEq hash b c = true) : blobEq hash a c = true := by
  unfold blobEq at *
  cases ha : hash a <;> cases hb : hash b <;> cases hc : hash c <;> simp_all

/-- C165: every value is equal to itself. -/
theorem equal_refl : ∀ v, proper hash v = true → deepEq hash v v = some true := by
  intro v
  induction v using EV.parts with
  | null => intro _; rfl
  | bool b => intro _; simp [deepEq]
  | num b => intro _; simp [deepEq]
  | str b => intro _; simp [deepEq]
  | array xs ih =>
    intro h
    simp only [proper] at h
    rw [deepEq_array]
    refine ⟨rfl, fun i x y hx hy => ?_⟩
    rw [hx] at hy
    injection hy with hy
    rw [← hy]
    have hm := List.mem_of_getElem? hx
    exact ih x hm (properList_mem hash h x hm)
  | object a ih =>
    intro h
    obtain ⟨hn, hp⟩ := proper_object hash h
    rw [deepEq_object]
    refine ⟨fun k v hm => ?_, fun k w hm hnone => ?_⟩
    · rw [lookup_of_mem hn hm]
      exact ih k v hm (hp k v hm)
    · rw [lookup_of_mem hn hm] at hnone; cases hnone
  | blob b => intro h; simp only [proper] at h; simp only [deepEq]; rw [blobEq_refl hash b h]
  | computed e _ => intro h; simp only [proper] at h; simp only [deepEq]; exact goEq_refl e h
  | secret v ih => intro h; simp only [proper] at h; simp only [deepEq]; exact ih h
  | ref u i v => intro _; simp [deepEq]
  | output v k s d ih => intro h; simp only [proper] at h; simp only [deepEq]; simpa using ih h

/-- C165: if one value is equal to another, so is the other to the one. -/
theorem equal_symm : ∀ v w, proper hash v = true → proper hash w = true → deepEq hash v w = some true → deepEq hash w v = some true := by
  intro v
  induction v using EV.parts with
  | array xs ih =>
    intro w hv hw h
    cases w with
    | array ys =>
      simp only [proper] at hv hw
      rw [deepEq_array] at h ⊢
      exact ⟨h.1.symm, fun i y x hy hx => ih x (List.mem_of_getElem? hx) y (properList_mem hash hv x (List.mem_of_getElem? hx))
        (properList_mem hash hw y (List.mem_of_getElem? hy)) (h.2 i x y hx hy)⟩
    | _ => simp [deepEq] at h
  | object a ih =>
    intro w hv hw h
    cases w with
    | object b =>
      obtain ⟨hna, hpa⟩ := proper_object hash hv
      obtain ⟨hnb, hpb⟩ := proper_object hash hw
      rw [deepEq_object] at h ⊢
      obtain ⟨h1, h2⟩ := h
      refine ⟨fun k w hm => ?_, fun k v hm hnone => ?_⟩
      · cases hl : a.lookup k with
        | none => exact h2 k w hm hl
        | some v =>
          have hva := lookup_mem hl
          have := h1 k v hva
          rw [lookup_of_mem hnb hm] at this
          exact ih k v hva w (hpa k v hva) (hpb k w hm) this
      · have := h1 k v hm
        rw [hnone] at this
        exact this
    | _ => simp [deepEq] at h
  | secret v ih =>
    intro w hv hw h
    cases w with
    | secret w => simp only [proper] at hv hw; simp only [deepEq] at h ⊢; exact ih w hv hw h
    | _ => simp [deepEq] at h
  | output v k s d ih =>
    intro w hv hw h
    cases w with
    | output w k' s' d' =>
      simp only [proper] at hv hw
      simp only [deepEq] at h ⊢
      split at h
      · cases h
      · next hc =>
        rw [if_neg (fun hc' => hc (hc'.elim (fun h => .inl (Ne.symm h)) (fun h => .inr (h.elim (fun h => .inl (Ne.symm h))
          (fun h => .inr (Ne.symm h))))))]
        exact ih w hv hw h
    | _ => simp [deepEq] at h
  | blob b =>
    intro w _ _ h
    cases w with
    | blob c => simp only [deepEq] at h ⊢; rw [blobEq_symm]; exact h
    | _ => simp [deepEq] at h
  | computed e _ =>
    intro w hv hw h
    cases w with
    | computed e' => simp only [deepEq] at h ⊢; have := goEq_eq _ _ h; rw [← this] at h ⊢; exact h
    | _ => simp [deepEq] at h
  | _ => intro w _ _ h; cases w <;> simp_all [deepEq]

theorem equal_null {v : EV} (h : deepEq hash v .null = some true) : v = .null := by
  cases v <;> simp_all [deepEq]

theorem null_equal {v : EV} (h : deepEq hash .null v = some true) : v = .null := by
  cases v <;> simp_all [deepEq]

theorem no_value {v : EV} (hv : noOutputs v = true) (h : hasValue v = false) : v = .null := by
  cases v <;> simp_all [hasValue, noOutputs]

/-- C165: values equal to the same value are equal, if there are no outputs among them. -/
theorem equal_trans : ∀ u v w, proper hash u = true → proper hash v = true → proper hash w = true → noOutputs u = true →
    noOutputs v = true → noOutputs w = true → deepEq hash u v = some true → deepEq hash v w = some true →
    deepEq hash u w = some true := by
  intro u
  induction u using EV.parts with
  | array xs ih =>
    intro v w hu hv hw ou ov ow h h'
    cases v with
    | array ys =>
      cases w with
      | array zs =>
        simp only [proper] at hu hv hw
        simp only [noOutputs] at ou ov ow
        rw [deepEq_array] at h h' ⊢
        refine ⟨h.1.trans h'.1, fun i x z hx hz => ?_⟩
        have hlt : i < ys.length := by
          rw [← h.1]; exact (List.getElem?_eq_some_iff.mp hx).1
        have hy : ys[i]? = some ys[i] := List.getElem?_eq_getElem hlt
        have mx := List.mem_of_getElem? hx
        have my := List.mem_of_getElem? hy
        have mz := List.mem_of_getElem? hz
        exact ih x mx _ z (properList_mem hash hu x mx) (properList_mem hash hv _ my) (properList_mem hash hw z mz)
          (noOutputsList_mem ou x mx) (noOutputsList_mem ov _ my) (noOutputsList_mem ow z mz) (h.2 i x _ hx hy) (h'.2 i _ z hy hz)
      | _ => simp [deepEq] at h'
    | _ => simp [deepEq] at h
  | object a ih =>
    intro v w hu hv hw ou ov ow h h'
    cases v with
    | object b =>
      cases w with
      | object c =>
        obtain ⟨hna, hpa⟩ := proper_object hash hu
        obtain ⟨hnb, hpb⟩ := proper_object hash hv
        obtain ⟨hnc, hpc⟩ := proper_object hash hw
        simp only [noOutputs] at ou ov ow
        rw [deepEq_object] at h h' ⊢
        obtain ⟨h1, h2⟩ := h
        obtain ⟨h3, h4⟩ := h'
        refine ⟨fun k x hm => ?_, fun k z hm hnone => ?_⟩
        · have hx := h1 k x hm
          cases hb : b.lookup k with
          | some y =>
            rw [hb] at hx
            have hy := h3 k y (lookup_mem hb)
            cases hc : c.lookup k with
            | some z =>
              rw [hc] at hy
              exact ih k x hm y z (hpa k x hm) (hpb k y (lookup_mem hb)) (hpc k z (lookup_mem hc)) (noOutputsKvs_mem ou k x hm)
                (noOutputsKvs_mem ov k y (lookup_mem hb)) (noOutputsKvs_mem ow k z (lookup_mem hc)) hx hy
            | none =>
              rw [hc] at hy
              have hyn := no_value (noOutputsKvs_mem ov k y (lookup_mem hb)) hy
              rw [hyn] at hx
              rw [equal_null hash hx]; rfl
          | none =>
            rw [hb] at hx
            have hxn := no_value (noOutputsKvs_mem ou k x hm) hx
            cases hc : c.lookup k with
            | some z =>
              have hz := h4 k z (lookup_mem hc) hb
              have := no_value (noOutputsKvs_mem ow k z (lookup_mem hc)) hz
              rw [hxn, this]; rfl
            | none => exact hx
        · cases hb : b.lookup k with
          | none => exact h4 k z hm hb
          | some y =>
            have hy := h2 k y (lookup_mem hb) hnone
            have hyn := no_value (noOutputsKvs_mem ov k y (lookup_mem hb)) hy
            have := h3 k y (lookup_mem hb)
            rw [lookup_of_mem hnc hm, hyn] at this
            rw [null_equal hash this]; rfl
      | _ => simp [deepEq] at h'
    | _ => simp [deepEq] at h
  | secret x ih =>
    intro v w hu hv hw ou ov ow h h'
    cases v with
    | secret y =>
      cases w with
      | secret z =>
        simp only [proper, noOutputs, deepEq] at *
        exact ih y z hu hv hw ou ov ow h h'
      | _ => simp [deepEq] at h'
    | _ => simp [deepEq] at h
  | output x k s d _ => intro v w _ _ _ ou; simp [noOutputs] at ou
  | blob b =>
    intro v w hu hv hw ou ov ow h h'
    cases v with
    | blob y =>
      cases w with
      | blob z => simp only [deepEq, Option.some.injEq] at *; exact blobEq_trans hash b y z h h'
      | _ => simp [deepEq] at h'
    | _ => simp [deepEq] at h
  | computed e _ =>
    intro v w hu hv hw ou ov ow h h'
    cases v with
    | computed y =>
      cases w with
      | computed z => simp only [deepEq] at *; rw [goEq_eq _ _ h]; exact h'
      | _ => simp [deepEq] at h'
    | _ => simp [deepEq] at h
  | _ =>
    intro v w hu hv hw ou ov ow h h'
    cases v <;> simp [deepEq] at h
    cases w <;> simp_all [deepEq]

/-- C165: two values can be compared, if those that are unknown stand for something that can be. -/
theorem comparison_works : ∀ v w, proper hash v = true → ∃ r, deepEq hash v w = some r := by
  intro v
  induction v using EV.parts with
  | array xs ih =>
    intro w hv
    cases w with
    | array ys =>
      simp only [proper] at hv
      simp only [deepEq]
      split
      · exact ⟨_, rfl⟩
      · have : ∀ (xs ys : List EV), (∀ x ∈ xs, ∀ w, proper hash x = true → ∃ r, deepEq hash x w = some r) →
            properList hash xs = true → ∃ r, eqList hash xs ys = some r := by
          intro xs
          induction xs with
          | nil => intro ys _ _; exact ⟨_, rfl⟩
          | cons x xs ihx =>
            intro ys h hp
            cases ys with
            | nil => exact ⟨_, rfl⟩
            | cons y ys =>
              simp only [properList, Bool.and_eq_true] at hp
              obtain ⟨r, hr⟩ := h x List.mem_cons_self y hp.1
              simp only [eqList, hr]
              cases r with
              | false => exact ⟨_, rfl⟩
              | true => exact ihx ys (fun z hz => h z (List.mem_cons_of_mem _ hz)) hp.2
        exact this xs ys ih hv
    | _ => exact ⟨_, rfl⟩
  | object a ih =>
    intro w hv
    cases w with
    | object b =>
      obtain ⟨_, hp⟩ := proper_object hash hv
      simp only [deepEq]
      have : ∀ (a : List (String × EV)), (∀ k v, (k, v) ∈ a → ∀ w, proper hash v = true → ∃ r, deepEq hash v w = some r) →
          (∀ k v, (k, v) ∈ a → proper hash v = true) → ∃ r, eqKvs hash a b = some r := by
        intro a
        induction a with
        | nil => intro _ _; exact ⟨_, rfl⟩
        | cons kv a iha =>
          intro h hp
          obtain ⟨k, v⟩ := kv
          have hr' := iha (fun k v hm => h k v (List.mem_cons_of_mem _ hm)) (fun k v hm => hp k v (List.mem_cons_of_mem _ hm))
          simp only [eqKvs]
          split
          · next w _ =>
            obtain ⟨r, hr⟩ := h k v List.mem_cons_self w (hp k v List.mem_cons_self)
            rw [hr]
            cases r with
            | false => exact ⟨_, rfl⟩
            | true => exact hr'
          · split
            · exact ⟨_, rfl⟩
            · exact hr'
      obtain ⟨r, hr⟩ := this a ih hp
      rw [hr]
      cases r <;> exact ⟨_, rfl⟩
    | _ => exact ⟨_, rfl⟩
  | secret v ih =>
    intro w hv
    cases w with
    | secret w => simp only [proper] at hv; simp only [deepEq]; exact ih w hv
    | _ => exact ⟨_, rfl⟩
  | output v k s d ih =>
    intro w hv
    cases w with
    | output w k' s' d' =>
      simp only [proper] at hv
      simp only [deepEq]
      split
      · exact ⟨_, rfl⟩
      · exact ih w hv
    | _ => exact ⟨_, rfl⟩
  | computed e _ =>
    intro w hv
    cases w with
    | computed e' => simp only [proper] at hv; simp only [deepEq]; exact goEq_total e e' hv
    | _ => exact ⟨_, rfl⟩
  | _ => intro w _; cases w <;> exact ⟨_, rfl⟩

/-- An unknown array cannot be compared with another: the comparison ends the program. Providers that say of an unknown property that it
will be an array get there. -/
theorem unknown_arrays_end_the_program : deepEq hash (.computed (.array [])) (.computed (.array [])) = none := rfl

/-- With outputs among them, values equal to the same value need not be equal: nothing is equal to a null, and to an unknown output. -/
theorem outputs_break_equality :
    deepEq hash (.object [("a", .null)]) (.object []) = some true ∧
    deepEq hash (.object []) (.object [("a", .output (.str "") false false [])]) = some true ∧
    deepEq hash (.object [("a", .null)]) (.object [("a", .output (.str "") false false [])]) = some false := ⟨rfl, rfl, rfl⟩

end Pulumi.Props
