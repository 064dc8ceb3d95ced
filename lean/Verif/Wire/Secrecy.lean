import Verif.Wire.Lemmas
/-! # Two runs of serialisation: lemmas for C13 and C14 -/
namespace Pulumi.Wire

/-- Entry lists with the same keys and related values. -/
def KSame (R : PV → PV → Prop) (xs ys : List (String × PV)) : Prop :=
  xs.map (·.1) = ys.map (·.1) ∧ ∀ p ∈ xs.zip ys, R p.1.2 p.2.2

theorem KSame.nil {R : PV → PV → Prop} : KSame R [] [] := ⟨rfl, by simp⟩

theorem KSame.cons_iff {R : PV → PV → Prop} {k k' : String} {x y : PV} {xs ys : List (String × PV)} :
    KSame R ((k, x) :: xs) ((k', y) :: ys) ↔ k = k' ∧ R x y ∧ KSame R xs ys := by
  unfold KSame
  constructor
  · rintro ⟨h1, h2⟩
    simp only [List.map_cons, List.cons.injEq] at h1
    refine ⟨h1.1, h2 ((k, x), (k', y)) (by simp), h1.2, ?_⟩
    intro p hp
    exact h2 p (by simp [hp])
  · rintro ⟨rfl, hr, h1, h2⟩
    refine ⟨by simp [h1], ?_⟩
    intro p hp
    simp only [List.zip_cons_cons, List.mem_cons] at hp
    rcases hp with rfl | hp
    · exact hr
    · exact h2 p hp

theorem KSame.cases {R : PV → PV → Prop} {xs ys : List (String × PV)} (h : KSame R xs ys) :
    (xs = [] ∧ ys = []) ∨ ∃ k x y xs' ys', xs = (k, x) :: xs' ∧ ys = (k, y) :: ys' ∧ R x y ∧ KSame R xs' ys' := by
  cases xs with
  | nil =>
    cases ys with
    | nil => exact Or.inl ⟨rfl, rfl⟩
    | cons y ys => have := h.1; simp at this
  | cons x xs =>
    cases ys with
    | nil => have := h.1; simp at this
    | cons y ys =>
      obtain ⟨k, x⟩ := x
      obtain ⟨k', y⟩ := y
      obtain ⟨rfl, hr, hs⟩ := KSame.cons_iff.1 h
      exact Or.inr ⟨k, x, y, xs, ys, rfl, rfl, hr, hs⟩

theorem KSame.setKey {R : PV → PV → Prop} {xs ys : List (String × PV)} (h : KSame R xs ys) (k : String)
    {v w : PV} (hv : R v w) : KSame R (setKey xs k v) (setKey ys k w) := by
  induction xs generalizing ys with
  | nil =>
    rcases h.cases with ⟨_, rfl⟩ | ⟨_, _, _, _, _, h, _⟩
    · exact KSame.cons_iff.2 ⟨rfl, hv, KSame.nil⟩
    · simp at h
  | cons x xs ih =>
    rcases h.cases with ⟨h, _⟩ | ⟨k', x', y', xs', ys', h1, rfl, hr, hs⟩
    · simp at h
    · simp only [List.cons.injEq] at h1
      obtain ⟨rfl, rfl⟩ := h1
      simp only [Wire.setKey]
      split
      · exact KSame.cons_iff.2 ⟨rfl, hv, hs⟩
      · exact KSame.cons_iff.2 ⟨rfl, hr, ih hs⟩

/-- Lists of the same length with related elements. -/
def LSame (R : PV → PV → Prop) (xs ys : List PV) : Prop :=
  xs.length = ys.length ∧ ∀ p ∈ xs.zip ys, R p.1 p.2

theorem LSame.cons_iff {R : PV → PV → Prop} {x y : PV} {xs ys : List PV} :
    LSame R (x :: xs) (y :: ys) ↔ R x y ∧ LSame R xs ys := by
  unfold LSame
  constructor
  · rintro ⟨h1, h2⟩
    simp only [List.length_cons, Nat.add_right_cancel_iff] at h1
    refine ⟨h2 (x, y) (by simp), h1, ?_⟩
    intro p hp
    exact h2 p (by simp [hp])
  · rintro ⟨hr, h1, h2⟩
    refine ⟨by simp [h1], ?_⟩
    intro p hp
    simp only [List.zip_cons_cons, List.mem_cons] at hp
    rcases hp with rfl | hp
    · exact hr
    · exact h2 p hp

theorem LSame.cases {R : PV → PV → Prop} {xs ys : List PV} (h : LSame R xs ys) :
    (xs = [] ∧ ys = []) ∨ ∃ x y xs' ys', xs = x :: xs' ∧ ys = y :: ys' ∧ R x y ∧ LSame R xs' ys' := by
  cases xs with
  | nil =>
    cases ys with
    | nil => exact Or.inl ⟨rfl, rfl⟩
    | cons y ys => have := h.1; simp at this
  | cons x xs =>
    cases ys with
    | nil => have := h.1; simp at this
    | cons y ys =>
      obtain ⟨hr, hs⟩ := LSame.cons_iff.1 h
      exact Or.inr ⟨x, y, xs, ys, rfl, rfl, hr, hs⟩

/-- `Q` relates only Outputs. -/
def OnOutputs (Q : PV → PV → Prop) : Prop :=
  ∀ a b, Q a b → ∃ r k s v r' k' s' v', a = .output r k s v ∧ b = .output r' k' s' v'

theorem hasUnknownList_same {xs ys : List PV} (h : LSame (fun a b => hasUnknown a = hasUnknown b) xs ys) :
    hasUnknownList xs = hasUnknownList ys := by
  induction xs generalizing ys with
  | nil =>
    rcases h.cases with ⟨_, rfl⟩ | ⟨_, _, _, _, h, _⟩
    · rfl
    · simp at h
  | cons x xs ih =>
    rcases h.cases with ⟨h, _⟩ | ⟨x', y', xs', ys', h1, rfl, hr, hs⟩
    · simp at h
    · simp only [List.cons.injEq] at h1
      obtain ⟨rfl, rfl⟩ := h1
      simp [hasUnknownList, hr, ih hs]

theorem hasUnknownKvs_same {xs ys : List (String × PV)}
    (h : KSame (fun a b => hasUnknown a = hasUnknown b) xs ys) : hasUnknownKvs xs = hasUnknownKvs ys := by
  induction xs generalizing ys with
  | nil =>
    rcases h.cases with ⟨_, rfl⟩ | ⟨_, _, _, _, _, h, _⟩
    · rfl
    · simp at h
  | cons x xs ih =>
    rcases h.cases with ⟨h, _⟩ | ⟨k', x', y', xs', ys', h1, rfl, hr, hs⟩
    · simp at h
    · simp only [List.cons.injEq] at h1
      obtain ⟨rfl, rfl⟩ := h1
      simp [hasUnknownKvs, hr, ih hs]

theorem hasUnknown_same {Q : PV → PV → Prop} (hQ : OnOutputs Q) {v w : PV} (h : Same Q v w) :
    hasUnknown v = hasUnknown w := by
  induction h with
  | base h =>
    obtain ⟨r, k, s, v, r', k', s', v', rfl, rfl⟩ := hQ _ _ h
    rfl
  | refl v => rfl
  | list hl _ ih => exact hasUnknownList_same ⟨hl, ih⟩
  | dict hl _ ih => exact hasUnknownKvs_same ⟨hl, ih⟩
  | assetArchive => rfl
  | awaitable => rfl
  | output => rfl
  | inputObj => rfl

theorem isNone_same {Q : PV → PV → Prop} (hQ : OnOutputs Q) {v w : PV} (h : Same Q v w) :
    isNone v = isNone w := by
  cases h with
  | base h =>
    obtain ⟨r, k, s, v, r', k', s', v', rfl, rfl⟩ := hQ _ _ h
    rfl
  | refl v => rfl
  | list hl _ => rfl
  | dict hl _ => rfl
  | assetArchive => rfl
  | awaitable => rfl
  | output => rfl
  | inputObj => rfl

/-- Two runs on `v` and `w` give indistinguishable results. -/
def RunsSame (env : Env) (B : PV → PV → Prop) (A : Prop) (v w : PV) : Prop :=
  ∀ keep ty x d y e, (keep = true → env.outputValues = true → A) →
    ser env keep ty v = .ok (x, d) → ser env keep ty w = .ok (y, e) → WireSame B A x y

section
variable {env : Env} {B : PV → PV → Prop} {A : Prop}

theorem runs_list {xs ys : List PV} (h : LSame (RunsSame env B A) xs ys) {keep : Bool} {ty : Ty}
    (hA : keep = true → env.outputValues = true → A) {vs ws : List PV} {d e : List ResId}
    (h1 : serList env keep ty xs = .ok (vs, d)) (h2 : serList env keep ty ys = .ok (ws, e)) :
    LSame (WireSame B A) vs ws := by
  induction xs generalizing ys vs ws d e with
  | nil =>
    rcases h.cases with ⟨_, rfl⟩ | ⟨_, _, _, _, h, _⟩
    · simp only [serList, Except.ok.injEq, Prod.mk.injEq] at h1 h2
      rw [← h1.1, ← h2.1]
      exact ⟨rfl, by simp⟩
    · simp at h
  | cons x xs ih =>
    rcases h.cases with ⟨h, _⟩ | ⟨x', y', xs', ys', hx, rfl, hr, hs⟩
    · simp at h
    · simp only [List.cons.injEq] at hx
      obtain ⟨rfl, rfl⟩ := hx
      obtain ⟨v, d1, vs', d2, a1, a2, rfl, rfl⟩ := serList_cons_ok h1
      obtain ⟨w, e1, ws', e2, b1, b2, rfl, rfl⟩ := serList_cons_ok h2
      exact LSame.cons_iff.2 ⟨hr _ _ _ _ _ _ hA a1 b1, ih hs a2 b2⟩

theorem runs_kvs {xs ys : List (String × PV)} (h : KSame (RunsSame env B A) xs ys) {keep : Bool} {ty : Ty}
    (hA : keep = true → env.outputValues = true → A) {acc acc' vs ws : List (String × PV)} {d e : List ResId}
    (ha : KSame (WireSame B A) acc acc')
    (h1 : serKvs env keep ty acc xs = .ok (vs, d)) (h2 : serKvs env keep ty acc' ys = .ok (ws, e)) :
    KSame (WireSame B A) vs ws := by
  induction xs generalizing ys vs ws d e acc acc' with
  | nil =>
    rcases h.cases with ⟨_, rfl⟩ | ⟨_, _, _, _, _, h, _⟩
    · simp only [serKvs, Except.ok.injEq, Prod.mk.injEq] at h1 h2
      rw [← h1.1, ← h2.1]
      exact ha
    · simp at h
  | cons x xs ih =>
    rcases h.cases with ⟨h, _⟩ | ⟨k, x', y', xs', ys', hx, rfl, hr, hs⟩
    · simp at h
    · simp only [List.cons.injEq] at hx
      obtain ⟨rfl, rfl⟩ := hx
      obtain ⟨v, d1, d2, a1, a2, rfl⟩ := serKvs_cons_ok h1
      obtain ⟨w, e1, e2, b1, b2, rfl⟩ := serKvs_cons_ok h2
      exact ih hs (ha.setKey _ (hr _ _ _ _ _ _ hA a1 b1)) a2 b2

theorem runs_fields {xs ys : List (String × PV)}
    (h : KSame (fun a b => RunsSame env B A a b ∧ isNone a = isNone b) xs ys)
    {keep : Bool} {c : String}
    (hA : keep = true → env.outputValues = true → A) {acc acc' vs ws : List (String × PV)} {d e : List ResId}
    (ha : KSame (WireSame B A) acc acc')
    (h1 : serFields env keep c acc xs = .ok (vs, d)) (h2 : serFields env keep c acc' ys = .ok (ws, e)) :
    KSame (WireSame B A) vs ws := by
  induction xs generalizing ys vs ws d e acc acc' with
  | nil =>
    rcases h.cases with ⟨_, rfl⟩ | ⟨_, _, _, _, _, h, _⟩
    · simp only [serFields, Except.ok.injEq, Prod.mk.injEq] at h1 h2
      rw [← h1.1, ← h2.1]
      exact ha
    · simp at h
  | cons x xs ih =>
    rcases h.cases with ⟨h, _⟩ | ⟨k, x', y', xs', ys', hx, rfl, hr, hs⟩
    · simp at h
    · simp only [List.cons.injEq] at hx
      obtain ⟨rfl, rfl⟩ := hx
      cases hn : isNone x' with
      | true =>
        have hn' := hr.2.symm.trans hn
        obtain rfl := isNone_eq hn
        obtain rfl := isNone_eq hn'
        rw [serFields_none] at h1 h2
        exact ih hs ha h1 h2
      | false =>
        have hn' := hr.2.symm.trans hn
        obtain ⟨v, d1, d2, a1, a2, rfl⟩ := serFields_cons_ok hn h1
        obtain ⟨w, e1, e2, b1, b2, rfl⟩ := serFields_cons_ok hn' h2
        exact ih hs (ha.setKey _ (hr.1 _ _ _ _ _ _ hA a1 b1)) a2 b2

theorem outputValueDict_same {k s : Bool} {x y : PV} (h : WireSame B A x y) (hA : A) (ds es : List String) :
    WireSame B A (outputValueDict k s x ds) (outputValueDict k s y es) := by
  unfold outputValueDict
  refine .deps hA ?_ ?_ ?_ ?_
  · rfl
  · cases k <;> cases s <;> rfl
  · intro p hp
    cases k <;> cases s <;> simp at hp
    · subst hp; exact .refl _
    · rcases hp with rfl | rfl <;> exact .refl _
    · rcases hp with rfl | rfl
      · exact .refl _
      · exact h
    · rcases hp with rfl | rfl | rfl
      · exact .refl _
      · exact h
      · exact .refl _
  · intro p hp
    simp only [List.mem_append] at hp
    rcases hp with hp | hp <;> (split at hp <;> simp at hp <;> rw [hp])

theorem finishOutput_same {k s : Bool} {x y : PV} (h : WireSame B A x y) :
    WireSame B A (finishOutput env k s x) (finishOutput env k s y) := by
  unfold finishOutput
  split
  · exact .refl _
  · split
    · refine .dict rfl ?_
      intro p hp
      simp at hp
      rcases hp with rfl | rfl
      · exact .refl _
      · exact h
    · exact h

theorem runs_same {Q : PV → PV → Prop} (hO : OnOutputs Q) (hQ : ∀ a b, Q a b → RunsSame env B A a b) {v w : PV}
    (h : Same Q v w) : RunsSame env B A v w := by
  induction h with
  | base h => exact hQ _ _ h
  | refl v =>
    intro keep ty x d y e _ h1 h2
    rw [h1] at h2
    simp only [Except.ok.injEq, Prod.mk.injEq] at h2
    rw [h2.1]
    exact .refl _
  | list hl _ ih =>
    intro keep ty x d y e hA h1 h2
    obtain ⟨t, vs, ht, a, rfl⟩ := ser_list_ok h1
    obtain ⟨t', ws, ht', b, rfl⟩ := ser_list_ok h2
    rw [ht] at ht'
    simp only [Except.ok.injEq] at ht'
    subst ht'
    have := runs_list ⟨hl, ih⟩ hA a b
    exact .list this.1 this.2
  | dict hl _ ih =>
    intro keep ty x d y e hA h1 h2
    obtain ⟨vs, a, rfl⟩ := ser_dict_ok h1
    obtain ⟨ws, b, rfl⟩ := ser_dict_ok h2
    have := runs_kvs ⟨hl, ih⟩ hA KSame.nil a b
    exact .dict this.1 this.2
  | assetArchive hl _ ih =>
    intro keep ty x d y e _ h1 h2
    obtain ⟨vs, a, rfl⟩ := ser_archive_ok h1
    obtain ⟨ws, b, rfl⟩ := ser_archive_ok h2
    have := runs_kvs ⟨hl, ih⟩ (by simp) KSame.nil a b
    refine .dict rfl ?_
    intro p hp
    simp at hp
    rcases hp with rfl | rfl
    · exact .refl _
    · exact .dict this.1 this.2
  | awaitable _ ih =>
    intro keep ty x d y e hA h1 h2
    rw [ser] at h1 h2
    exact ih _ _ _ _ _ _ hA h1 h2
  | @output r k s v w hs ih =>
    intro keep ty x d y e hA h1 h2
    obtain ⟨v', pd, hv, rfl, rfl⟩ := ser_output_ok h1
    obtain ⟨w', pd', hw, rfl, rfl⟩ := ser_output_ok h2
    have hu := hasUnknown_same hO hs
    have hr : WireSame B A v' w' := by
      rcases hv with ⟨u, rfl, rfl⟩ | ⟨u, hv⟩ <;> rcases hw with ⟨u', rfl, rfl⟩ | ⟨u', hw⟩
      · exact .refl _
      · rw [hu, u'] at u; cases u
      · rw [hu, u'] at u; cases u
      · exact ih _ _ _ _ _ _ (by simp) hv hw
    unfold outForm
    split
    · rename_i hk
      simp only [Bool.and_eq_true] at hk
      exact outputValueDict_same hr (hA hk.1 hk.2) _ _
    · exact finishOutput_same hr
  | inputObj hl hs ih =>
    intro keep ty x d y e hA h1 h2
    obtain ⟨vs, a, rfl⟩ := ser_input_ok h1
    obtain ⟨ws, b, rfl⟩ := ser_input_ok h2
    have := runs_fields ⟨hl, fun p hp => ⟨ih p hp, isNone_same hO (hs p hp)⟩⟩ hA KSame.nil a b
    exact .dict this.1 this.2

theorem ksame_eq {xs ys : List (String × PV)} (h : KSame (fun a b => a = b) xs ys) : xs = ys := by
  induction xs generalizing ys with
  | nil =>
    rcases h.cases with ⟨_, rfl⟩ | ⟨_, _, _, _, _, h, _⟩
    · rfl
    · simp at h
  | cons x xs ih =>
    rcases h.cases with ⟨h, _⟩ | ⟨k, x', y', xs', ys', hx, rfl, hr, hs⟩
    · simp at h
    · rw [hx, hr]
      simp only [List.cons.injEq] at hx
      rw [← hx.2, ih (by rw [hx.2]; exact hs)]

theorem lsame_eq {xs ys : List PV} (h : LSame (fun a b => a = b) xs ys) : xs = ys := by
  induction xs generalizing ys with
  | nil =>
    rcases h.cases with ⟨_, rfl⟩ | ⟨_, _, _, _, h, _⟩
    · rfl
    · simp at h
  | cons x xs ih =>
    rcases h.cases with ⟨h, _⟩ | ⟨x', y', xs', ys', hx, rfl, hr, hs⟩
    · simp at h
    · rw [hx, hr]
      simp only [List.cons.injEq] at hx
      rw [← hx.2, ih (by rw [hx.2]; exact hs)]

/-- If nothing may differ, nothing does. -/
theorem wireSame_eq {v w : PV} (h : WireSame (fun _ _ => False) False v w) : v = w := by
  induction h with
  | base h => exact h.elim
  | refl v => rfl
  | list hl _ ih => rw [lsame_eq ⟨hl, ih⟩]
  | dict hl _ ih => rw [ksame_eq ⟨hl, ih⟩]
  | deps h => exact h.elim

end

end Pulumi.Wire
