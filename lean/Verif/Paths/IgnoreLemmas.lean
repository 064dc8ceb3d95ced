import Verif.Paths.Ignore
/-!
# Lemmas about `ignoreChanges`
-/
namespace Pulumi.Paths
open Pulumi.Engine (EV)

theorem srcOf_put_same (k : Text) (c : List (Text × Src)) : srcOf k (putSrc k c) = some .old := by simp [putSrc, srcOf]

theorem srcOf_filter_other (k j : Text) (hj : j ≠ k) : ∀ c : List (Text × Src),
    srcOf j (c.filter (fun ks => decide (ks.1 ≠ k))) = srcOf j c := by
  intro c
  induction c with
  | nil => rfl
  | cons ks c ih =>
    obtain ⟨k', s⟩ := ks
    by_cases h : k' = k
    · have hkj : ¬ k' = j := by rw [h]; exact Ne.symm hj
      conv => rhs; unfold srcOf; rw [if_neg hkj]
      simp only [ne_eq, h, not_true_eq_false, decide_false, Bool.false_eq_true, not_false_eq_true, List.filter_cons_of_neg]
      exact ih
    · simp only [ne_eq, h, not_false_eq_true, decide_true, List.filter_cons_of_pos]
      unfold srcOf
      by_cases h2 : k' = j
      · rw [if_pos h2, if_pos h2]
      · rw [if_neg h2, if_neg h2]; exact ih

theorem srcOf_put_other (k j : Text) (hj : j ≠ k) (c : List (Text × Src)) : srcOf j (putSrc k c) = srcOf j c := by
  unfold putSrc
  conv => lhs; unfold srcOf
  rw [if_neg (Ne.symm hj)]
  exact srcOf_filter_other k j hj c

theorem srcOf_drop_same (k : Text) : ∀ c : List (Text × Src), srcOf k (dropSrc k c) = none := by
  intro c
  induction c with
  | nil => rfl
  | cons ks c ih =>
    obtain ⟨k', s⟩ := ks
    unfold dropSrc at ih ⊢
    by_cases h : k' = k
    · simp only [ne_eq, h, not_true_eq_false, decide_false, Bool.false_eq_true, not_false_eq_true, List.filter_cons_of_neg]
      exact ih
    · simp only [ne_eq, h, not_false_eq_true, decide_true, List.filter_cons_of_pos]
      unfold srcOf
      rw [if_neg h]; exact ih

theorem srcOf_drop_other (k j : Text) (hj : j ≠ k) (c : List (Text × Src)) : srcOf j (dropSrc k c) = srcOf j c :=
  srcOf_filter_other k j hj c

theorem copyGet_name (s : IState) (k : Text) (ks : Path) :
    copyGet s (.name k :: ks) = match srcOf k s.copy with
      | none => none
      | some .own => get (.name k :: ks) s.own
      | some .old => get (.name k :: ks) s.old := by
  unfold copyGet copyMember
  simp only
  cases srcOf k s.copy with
  | none => rfl
  | some x => cases x <;> rfl

/-- one change to the copy: at one of its own keys, or below one, where that comes from -/
inductive Changed (f : EV → Key → Option EV) (s : IState) (p : Path) (s' : IState) : Prop
  | top (k : Text) (c : List (Text × Src)) : p = [.name k] → s' = { s with copy := c } →
      (∀ j, j ≠ k → srcOf j c = srcOf j s.copy) → Changed f s p s'
  | own (k : Text) (ks : Path) (t : EV) : p = .name k :: ks → ks ≠ [] → srcOf k s.copy = some .own → change f p s.own = some t →
      s' = { s with own := t } → Changed f s p s'
  | old (k : Text) (ks : Path) (t : EV) : p = .name k :: ks → ks ≠ [] → srcOf k s.copy = some .old → change f p s.old = some t →
      s' = { s with old := t } → Changed f s p s'

theorem set_changed {p : Path} {v : EV} {s s' : IState} (h : setCopy p v s = some s') : Changed (fun d k => putKey d k v) s p s' := by
  match p with
  | [] => cases h
  | .idx _ :: _ => cases h
  | [.name k] => cases h; exact .top k _ rfl rfl (fun j hj => srcOf_put_other k j hj s.copy)
  | .name k :: j :: ks =>
    simp only [setCopy] at h
    cases hs : srcOf k s.copy with
    | none => rw [hs] at h; cases h
    | some x =>
      cases x with
      | own =>
        rw [hs] at h; simp only at h
        cases ht : setAt (.name k :: j :: ks) v s.own with
        | none => rw [ht] at h; cases h
        | some t => rw [ht] at h; cases h; exact .own k (j :: ks) t rfl (by simp) hs ht rfl
      | old =>
        rw [hs] at h; simp only at h
        cases ht : setAt (.name k :: j :: ks) v s.old with
        | none => rw [ht] at h; cases h
        | some t => rw [ht] at h; cases h; exact .old k (j :: ks) t rfl (by simp) hs ht rfl

theorem delete_changed {p : Path} {s s' : IState} (h : deleteCopy p s = some s') : Changed dropKey s p s' := by
  match p with
  | [] => cases h
  | .idx _ :: _ => cases h
  | [.name k] => cases h; exact .top k _ rfl rfl (fun j hj => srcOf_drop_other k j hj s.copy)
  | .name k :: j :: ks =>
    simp only [deleteCopy] at h
    cases hs : srcOf k s.copy with
    | none => rw [hs] at h; cases h
    | some x =>
      cases x with
      | own =>
        rw [hs] at h; simp only at h
        cases ht : deleteAt (.name k :: j :: ks) s.own with
        | none => rw [ht] at h; cases h
        | some t => rw [ht] at h; cases h; exact .own k (j :: ks) t rfl (by simp) hs ht rfl
      | old =>
        rw [hs] at h; simp only at h
        cases ht : deleteAt (.name k :: j :: ks) s.old with
        | none => rw [ht] at h; cases h
        | some t => rw [ht] at h; cases h; exact .old k (j :: ks) t rfl (by simp) hs ht rfl

/-- nothing apart from the path changes in the copy -/
theorem changed_apart {f : EV → Key → Option EV} (hf : Local f) {s s' : IState} {p : Path} (h : Changed f s p s') {q : Path}
    (hq : Apart p q) : copyGet s' q = copyGet s q := by
  cases q with
  | nil => exact absurd List.nil_prefix hq.2
  | cons j qs =>
    cases j with
    | idx i => rfl
    | name j =>
      rw [copyGet_name, copyGet_name]
      cases h with
      | top k c hp hs hc =>
        subst hp; subst hs
        have hjk : j ≠ k := by
          intro he; subst he
          exact hq.1 (List.cons_prefix_cons.2 ⟨rfl, List.nil_prefix⟩)
        simp only
        rw [hc j hjk]
      | own k ks t hp _ _ ht hs =>
        subst hs
        simp only
        rw [change_apart hf p _ s.own t ht hq]
      | old k ks t hp _ _ ht hs =>
        subst hs
        simp only
        rw [change_apart hf p _ s.old t ht hq]

/-- a change below a path is a change of what is there -/
theorem changed_above {f : EV → Key → Option EV} {s s' : IState} {q r : Path} (h : Changed f s (q ++ r) s') (hq : q ≠ []) (hr : r ≠ []) :
    ∃ w w', copyGet s q = some w ∧ change f r w = some w' ∧ copyGet s' q = some w' := by
  cases q with
  | nil => exact absurd rfl hq
  | cons j qs =>
    cases h with
    | top k c hp _ _ =>
      have := congrArg List.length hp
      cases r with
      | nil => exact absurd rfl hr
      | cons _ _ => simp only [List.length_append, List.length_cons, List.length_nil] at this; omega
    | own k ks t hp hks hsrc ht hs =>
      subst hs
      rw [List.cons_append] at hp
      cases hp
      obtain ⟨w, w', h1, h2, h3⟩ := change_append r hr (.name k :: qs) s.own t ht
      refine ⟨w, w', ?_, h2, ?_⟩
      · rw [copyGet_name, hsrc]; exact h1
      · rw [copyGet_name]; simp only [hsrc]; exact h3
    | old k ks t hp hks hsrc ht hs =>
      subst hs
      rw [List.cons_append] at hp
      cases hp
      obtain ⟨w, w', h1, h2, h3⟩ := change_append r hr (.name k :: qs) s.old t ht
      refine ⟨w, w', ?_, h2, ?_⟩
      · rw [copyGet_name, hsrc]; exact h1
      · rw [copyGet_name]; simp only [hsrc]; exact h3

theorem setCopy_get {p : Path} {v : EV} {s s' : IState} (hv : get p s.old = some v) (h : setCopy p v s = some s') (r : Path) :
    copyGet s' (p ++ r) = get r v := by
  have hc := set_changed h
  cases hc with
  | top k c hp hs _ =>
    subst hp
    have : s' = { s with copy := putSrc k s.copy } := by cases h; rfl
    subst this
    rw [List.cons_append, List.nil_append, copyGet_name]
    simp only [srcOf_put_same]
    rw [get_single] at hv
    rw [get_cons, hv]; rfl
  | own k ks t hp _ hsrc ht hs =>
    subst hs
    have hg := set_get (p := p) (v := v) ht
    rw [hp, List.cons_append, copyGet_name]
    simp only [hsrc]
    rw [← List.cons_append, ← hp, get_append, hg]; rfl
  | old k ks t hp _ hsrc ht hs =>
    subst hs
    have hg := set_get (p := p) (v := v) ht
    rw [hp, List.cons_append, copyGet_name]
    simp only [hsrc]
    rw [← List.cons_append, ← hp, get_append, hg]; rfl

theorem get_null (r : Path) (hr : r ≠ []) : get r .null = none := by
  cases r with
  | nil => exact absurd rfl hr
  | cons k ks => rw [get_cons, show step .null k = none by cases k <;> rfl]; rfl

theorem deleteCopy_get {p : Path} {s s' : IState} (h : deleteCopy p s = some s') (r : Path) :
    Gone (p ++ r) (copyGet s' (p ++ r)) := by
  have hn : ∀ (o : Option EV), Gone p o → Gone (p ++ r) (o.bind (get r)) := by
    rintro o (rfl | ⟨rfl, i, hi⟩)
    · exact .inl rfl
    · by_cases hr : r = []
      · subst hr; exact .inr ⟨rfl, i, by rw [List.append_nil]; exact hi⟩
      · exact .inl (get_null r hr)
  have hc := delete_changed h
  cases hc with
  | top k c hp hs _ =>
    subst hp
    have : s' = { s with copy := dropSrc k s.copy } := by cases h; rfl
    subst this
    left
    rw [List.cons_append, List.nil_append, copyGet_name]
    simp only [srcOf_drop_same]
  | own k ks t hp _ hsrc ht hs =>
    subst hs
    have hg := delete_get (p := p) ht
    rw [hp, List.cons_append, copyGet_name]
    simp only [hsrc]
    rw [← List.cons_append, ← hp, get_append]
    exact hn _ hg
  | old k ks t hp _ hsrc ht hs =>
    subst hs
    have hg := delete_get (p := p) ht
    rw [hp, List.cons_append, copyGet_name]
    simp only [hsrc]
    rw [← List.cons_append, ← hp, get_append]
    exact hn _ hg

theorem ignoreOne_cases {s s' : IState} {p : Path} (h : ignoreOne s p = .ok s') :
    (∃ v, get p s.old = some v ∧ setCopy p v s = some s') ∨
    (get p s.old = none ∧ (get p s.own).isSome = true ∧ deleteCopy p s = some s') ∨
    (get p s.old = none ∧ get p s.own = none ∧ s' = s) := by
  unfold ignoreOne at h
  cases ho : get p s.old with
  | some v =>
    rw [ho] at h; simp only at h
    cases hc : setCopy p v s with
    | some t => rw [hc] at h; cases h; exact .inl ⟨v, rfl, hc⟩
    | none =>
      rw [hc] at h; simp only at h
      by_cases hn : (get p s.own).isSome = true
      · rw [if_pos hn] at h; cases h
      · rw [if_neg hn] at h; cases h
  | none =>
    rw [ho] at h; simp only at h
    by_cases hn : (get p s.own).isSome = true
    · rw [if_pos hn] at h
      cases hc : deleteCopy p s with
      | some t => rw [hc] at h; cases h; exact .inr (.inl ⟨rfl, hn, rfl⟩)
      | none => rw [hc] at h; cases h
    · rw [if_neg hn] at h; cases h
      refine .inr (.inr ⟨rfl, ?_, rfl⟩)
      cases hg : get p s.own with
      | none => rfl
      | some v => rw [hg] at hn; exact absurd rfl hn

/-- the old inputs stay what they are -/
theorem ignoreOne_old {s s' : IState} {p : Path} (h : ignoreOne s p = .ok s') : s'.old = s.old := by
  rcases ignoreOne_cases h with ⟨v, hv, hc⟩ | ⟨hv, _, hc⟩ | ⟨_, _, rfl⟩
  · cases set_changed hc with
    | top k c _ hs _ => rw [hs]
    | own k ks t _ _ _ _ hs => rw [hs]
    | old k ks t _ _ _ ht hs => rw [hs]; exact set_noop (p := p) (v := v) ht hv
  · cases delete_changed hc with
    | top k c _ hs _ => rw [hs]
    | own k ks t _ _ _ _ hs => rw [hs]
    | old k ks t _ _ _ ht hs => rw [hs]; exact delete_noop (p := p) ht hv
  · rfl

/-- the path that is handled has the old value -/
theorem ignoreOne_kept {s s' : IState} {p : Path} (h : ignoreOne s p = .ok s') (hinit : get p s.own = none → get p s.old = none →
    Gone p (copyGet s p)) : Kept p s.old (copyGet s' p) := by
  unfold Kept
  rcases ignoreOne_cases h with ⟨v, hv, hc⟩ | ⟨hv, _, hc⟩ | ⟨hv, hn, rfl⟩
  · rw [hv]
    have := setCopy_get hv hc []
    rw [List.append_nil] at this
    exact this
  · rw [hv]
    have := deleteCopy_get hc []
    rw [List.append_nil] at this
    exact this
  · rw [hv]; exact hinit hn hv

/-- and the others keep theirs -/
theorem ignoreOne_keeps {s s' : IState} {p q : Path} (h : ignoreOne s q = .ok s') (hp : p ≠ []) (hk : Kept p s.old (copyGet s p)) :
    Kept p s.old (copyGet s' p) := by
  by_cases hap : Apart q p
  · -- apart
    rcases ignoreOne_cases h with ⟨v, _, hc⟩ | ⟨_, _, hc⟩ | ⟨_, _, rfl⟩
    · rw [changed_apart (local_put v) (set_changed hc) hap]; exact hk
    · rw [changed_apart local_drop (delete_changed hc) hap]; exact hk
    · exact hk
  · by_cases hqp : q <+: p
    · -- `p` is inside `q`
      obtain ⟨r, rfl⟩ := hqp
      rcases ignoreOne_cases h with ⟨v, hv, hc⟩ | ⟨hv, _, hc⟩ | ⟨_, _, rfl⟩
      · rw [setCopy_get hv hc r]
        unfold Kept
        rw [get_append, hv, Option.bind_some]
        cases get r v with
        | none => exact .inl rfl
        | some w => rfl
      · unfold Kept
        rw [get_append, hv, Option.bind_none]
        exact deleteCopy_get hc r
      · exact hk
    · -- `q` is inside `p`
      have hpq : p <+: q := Classical.byContradiction (fun hx => hap ⟨hqp, hx⟩)
      obtain ⟨r, rfl⟩ := hpq
      have hr : r ≠ [] := by
        rintro rfl; apply hqp; rw [List.append_nil]; exact List.prefix_refl p
      unfold Kept at hk ⊢
      rcases ignoreOne_cases h with ⟨v, hv, hc⟩ | ⟨hv, _, hc⟩ | ⟨_, _, rfl⟩
      · obtain ⟨w, w', h1, h2, h3⟩ := changed_above (set_changed hc) hp hr
        rw [get_append] at hv
        cases ho : get p s.old with
        | none => rw [ho] at hv; cases hv
        | some u =>
          rw [ho] at hk hv
          simp only at hk
          rw [hk] at h1; cases h1
          rw [h3]
          have := set_noop (p := r) (v := v) (t := w) (t' := w') h2 hv
          rw [this]
      · obtain ⟨w, w', h1, h2, h3⟩ := changed_above (delete_changed hc) hp hr
        rw [get_append] at hv
        cases ho : get p s.old with
        | none =>
          rw [ho] at hk
          simp only at hk
          rcases hk with hk | hk
          · rw [hk] at h1; cases h1
          · rw [hk.1] at h1; cases h1
            exfalso
            cases r with
            | nil => exact hr rfl
            | cons k ks =>
              have hst : step EV.null k = none := by cases k <;> rfl
              cases ks with
              | nil => rw [change_single] at h2; cases k <;> cases h2
              | cons j ks => rw [change_cons2, hst] at h2; cases h2
        | some u =>
          rw [ho] at hk hv
          simp only at hk
          rw [hk] at h1; cases h1
          rw [h3]
          have := delete_noop (p := r) (t := w) (t' := w') h2 hv
          rw [this]
      · exact hk

/-! ## what holds throughout -/

/-- a member that the copy has not got is missing from the inputs, or from the old inputs; both are objects -/
structure Sound (s : IState) : Prop where
  own : ∃ kvs, s.own = .object kvs
  old : ∃ kvs, s.old = .object kvs
  missing : ∀ k, srcOf k s.copy = none → step s.own (.name k) = none ∨ step s.old (.name k) = none

theorem srcOf_start (own : List (String × EV)) (k : Text) :
    srcOf k (own.map (fun kv => (kv.1.toList, Src.own))) = (member k own).map (fun _ => Src.own) := by
  induction own with
  | nil => rfl
  | cons kv own ih =>
    obtain ⟨k', v⟩ := kv
    simp only [List.map_cons]
    unfold srcOf member
    by_cases h : k'.toList = k
    · rw [if_pos h, if_pos h]; rfl
    · rw [if_neg h, if_neg h]; exact ih

theorem sound_start (own old : List (String × EV)) : Sound (startCopy own old) := by
  refine ⟨⟨own, rfl⟩, ⟨old, rfl⟩, ?_⟩
  intro k hk
  left
  unfold startCopy at hk ⊢
  simp only at hk ⊢
  rw [srcOf_start] at hk
  show member k own = none
  cases hm : member k own with
  | none => rfl
  | some v => rw [hm] at hk; cases hk

theorem copyGet_start (own old : List (String × EV)) (p : Path) (hp : p ≠ []) :
    copyGet (startCopy own old) p = get p (.object own) := by
  cases p with
  | nil => exact absurd rfl hp
  | cons j ks =>
    cases j with
    | idx i => rfl
    | name k =>
      rw [copyGet_name]
      unfold startCopy
      simp only
      rw [srcOf_start]
      cases hm : member k own with
      | none => simp [get_cons, step, hm]
      | some v => simp

theorem put_object {kvs : List (String × EV)} {k : Key} {v d : EV} (h : putKey (.object kvs) k v = some d) : ∃ kvs', d = .object kvs' := by
  cases k with
  | idx i => cases h
  | name n => cases h; exact ⟨_, rfl⟩

theorem change_below_object {f : EV → Key → Option EV} {kvs : List (String × EV)} {k : Key} {ks : Path} {t : EV} (hks : ks ≠ [])
    (h : change f (k :: ks) (.object kvs) = some t) : ∃ kvs', t = .object kvs' := by
  rw [change_cons hks] at h
  obtain ⟨_, _, _, _, hp⟩ := h
  exact put_object hp

theorem change_below_step {f : EV → Key → Option EV} {k j : Key} {ks : Path} {d t : EV} (hks : ks ≠ [])
    (h : change f (k :: ks) d = some t) : step t j = none ↔ step d j = none := by
  rw [change_cons hks] at h
  obtain ⟨w, w', hs, _, hp⟩ := h
  by_cases hj : j = k
  · subst hj; rw [step_put_same hp, hs]; simp
  · rw [step_put_other hp hj]

theorem sound_ignoreOne {s s' : IState} {p : Path} (hs : Sound s) (h : ignoreOne s p = .ok s') : Sound s' := by
  have hold := ignoreOne_old h
  have aux : ∀ f, Changed f s p s' → (∀ k, p = [.name k] → srcOf k s'.copy = none → step s.old (.name k) = none) → Sound s' := by
    intro f hc htop
    cases hc with
    | top k c hp hs' hsrc =>
      subst hs'
      refine ⟨hs.own, hs.old, ?_⟩
      intro j hj
      by_cases hjk : j = k
      · subst hjk; exact .inr (htop j hp hj)
      · rw [hsrc j hjk] at hj; exact hs.missing j hj
    | own k ks t hp hks hsrc ht hs' =>
      subst hs'
      obtain ⟨kvs, hkvs⟩ := hs.own
      refine ⟨?_, hs.old, ?_⟩
      · rw [hkvs, hp] at ht; exact change_below_object hks ht
      · intro j hj
        rcases hs.missing j hj with h1 | h1
        · left; rw [hp] at ht; exact (change_below_step hks ht).2 h1
        · exact .inr h1
    | old k ks t hp hks hsrc ht hs' =>
      subst hs'
      simp only at hold
      subst hold
      exact ⟨hs.own, hs.old, hs.missing⟩
  rcases ignoreOne_cases h with ⟨v, hv, hc⟩ | ⟨hv, _, hc⟩ | ⟨_, _, rfl⟩
  · apply aux _ (set_changed hc)
    intro k hp hsrc
    subst hp
    have : s' = { s with copy := putSrc k s.copy } := by cases hc; rfl
    subst this
    simp only [srcOf_put_same] at hsrc
    cases hsrc
  · apply aux _ (delete_changed hc)
    intro k hp _
    subst hp
    rw [get_single] at hv
    exact hv
  · exact hs

theorem hasPlace_change {f : EV → Key → Option EV} (hf : Local f) (p : Path) (t : EV) :
    (∃ t', change f p t = some t') ↔ HasPlace t p := by
  cases hp : p.reverse with
  | nil =>
    rw [List.reverse_eq_nil_iff] at hp; subst hp
    constructor
    · rintro ⟨_, h⟩; cases h
    · rintro ⟨q, k, d, h, _⟩; simp at h
  | cons k q' =>
    have hpq := List.reverse_eq_cons_iff.1 hp
    generalize q'.reverse = q at hpq
    subst hpq
    rw [change_some hf]
    constructor
    · rintro ⟨d, h1, h2⟩; exact ⟨q, k, d, rfl, h1, h2⟩
    · rintro ⟨q2, k2, d, h0, h1, h2⟩
      obtain ⟨rfl, h3⟩ := List.append_inj' h0 rfl
      cases h3
      exact ⟨d, h1, h2⟩

theorem hasPlace_of_get {p : Path} {t v : EV} (hp : p ≠ []) (h : get p t = some v) : HasPlace t p := by
  cases hr : p.reverse with
  | nil => rw [List.reverse_eq_nil_iff] at hr; exact absurd hr hp
  | cons k q' =>
    have hpq := List.reverse_eq_cons_iff.1 hr
    generalize q'.reverse = q at hpq
    subst hpq
    rw [get_append] at h
    cases hg : get q t with
    | none => rw [hg] at h; cases h
    | some d =>
      rw [hg, Option.bind_some, get_single] at h
      exact ⟨q, k, d, rfl, hg, accepts_of_step h⟩

theorem get_idx_object (i : Int) (ks : Path) (kvs : List (String × EV)) : get (.idx i :: ks) (.object kvs) = none := rfl

theorem ignoreOne_crash {s : IState} (hs : Sound s) (p : Path) : ignoreOne s p = .crash ↔ p = [] := by
  constructor
  · intro h
    apply Classical.byContradiction
    intro hne
    obtain ⟨okvs, hown⟩ := hs.own
    obtain ⟨lkvs, hold⟩ := hs.old
    unfold ignoreOne at h
    cases ho : get p s.old with
    | none =>
      rw [ho] at h; simp only at h
      by_cases hn : (get p s.own).isSome = true
      · rw [if_pos hn] at h
        cases hc : deleteCopy p s <;> rw [hc] at h <;> cases h
      · rw [if_neg hn] at h; cases h
    | some v =>
      rw [ho] at h; simp only at h
      cases hc : setCopy p v s with
      | some t => rw [hc] at h; cases h
      | none =>
        rw [hc] at h; simp only at h
        by_cases hn : (get p s.own).isSome = true
        · obtain ⟨w, hw⟩ := Option.isSome_iff_exists.1 hn
          match p with
          | [] => exact hne rfl
          | .idx i :: ks => rw [hown] at hw; cases hw
          | [.name k] => cases hc
          | .name k :: j :: ks =>
            simp only [setCopy] at hc
            cases hsrc : srcOf k s.copy with
            | none =>
              rcases hs.missing k hsrc with h1 | h1
              · rw [get_cons, h1] at hw; cases hw
              · rw [get_cons, h1] at ho; cases ho
            | some x =>
              cases x with
              | own =>
                rw [hsrc] at hc; simp only [Option.map_eq_none_iff] at hc
                obtain ⟨t', ht⟩ := (hasPlace_change (local_put v) _ _).2 (hasPlace_of_get (by simp) hw)
                unfold setAt at hc; rw [ht] at hc; cases hc
              | old =>
                rw [hsrc] at hc; simp only [Option.map_eq_none_iff] at hc
                obtain ⟨t', ht⟩ := (hasPlace_change (local_put v) _ _).2 (hasPlace_of_get (by simp) ho)
                unfold setAt at hc; rw [ht] at hc; cases hc
        · rw [if_neg hn] at h; cases h
  · rintro rfl
    rfl

end Pulumi.Paths
