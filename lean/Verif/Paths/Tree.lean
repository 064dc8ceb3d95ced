import Verif.Paths.Lemmas
/-!
# Lemmas about reading and changing values at paths
-/
namespace Pulumi.Paths
open Pulumi.Engine (EV)

theorem member_put_same (k : Text) (v : EV) : ∀ kvs, member k (putMember k v kvs) = some v := by
  intro kvs
  induction kvs with
  | nil => simp [putMember, member, String.toList_ofList]
  | cons kv kvs ih =>
    obtain ⟨k', v'⟩ := kv
    unfold putMember
    by_cases h : k'.toList = k
    · rw [if_pos h]; unfold member; rw [if_pos h]
    · rw [if_neg h]; unfold member; rw [if_neg h]; exact ih

theorem member_put_other (k j : Text) (v : EV) (hj : j ≠ k) : ∀ kvs, member j (putMember k v kvs) = member j kvs := by
  intro kvs
  induction kvs with
  | nil => simp [putMember, member, String.toList_ofList, Ne.symm hj]
  | cons kv kvs ih =>
    obtain ⟨k', v'⟩ := kv
    unfold putMember
    by_cases h : k'.toList = k
    · rw [if_pos h]; unfold member; rw [if_neg (by rw [h]; exact Ne.symm hj), if_neg (by rw [h]; exact Ne.symm hj)]
    · rw [if_neg h]
      unfold member
      by_cases h2 : k'.toList = j
      · rw [if_pos h2, if_pos h2]
      · rw [if_neg h2, if_neg h2]; exact ih

theorem putMember_noop (k : Text) (v : EV) : ∀ kvs, member k kvs = some v → putMember k v kvs = kvs := by
  intro kvs
  induction kvs with
  | nil => intro h; simp [member] at h
  | cons kv kvs ih =>
    obtain ⟨k', v'⟩ := kv
    intro h
    unfold member at h
    unfold putMember
    by_cases h2 : k'.toList = k
    · rw [if_pos h2] at h ⊢; cases h; rfl
    · rw [if_neg h2] at h ⊢; rw [ih h]

theorem member_drop_same (k : Text) : ∀ kvs, member k (dropMember k kvs) = none := by
  intro kvs
  induction kvs with
  | nil => rfl
  | cons kv kvs ih =>
    obtain ⟨k', v'⟩ := kv
    unfold dropMember at ih ⊢
    by_cases h : k'.toList = k
    · simp [h] at ih ⊢; exact ih
    · simp only [ne_eq, h, not_false_eq_true, decide_true, List.filter_cons_of_pos]
      unfold member
      rw [if_neg h]; exact ih

theorem member_drop_other (k j : Text) (hj : j ≠ k) : ∀ kvs, member j (dropMember k kvs) = member j kvs := by
  intro kvs
  induction kvs with
  | nil => rfl
  | cons kv kvs ih =>
    obtain ⟨k', v'⟩ := kv
    unfold dropMember at ih ⊢
    by_cases h : k'.toList = k
    · have hkj : ¬ k'.toList = j := by rw [h]; exact Ne.symm hj
      conv => rhs; unfold member; rw [if_neg hkj]
      simp only [ne_eq, h, not_true_eq_false, decide_false, Bool.false_eq_true, not_false_eq_true, List.filter_cons_of_neg]
      exact ih
    · simp only [ne_eq, h, not_false_eq_true, decide_true, List.filter_cons_of_pos]
      unfold member
      by_cases h2 : k'.toList = j
      · rw [if_pos h2, if_pos h2]
      · rw [if_neg h2, if_neg h2]; exact ih

theorem dropMember_noop (k : Text) : ∀ kvs, member k kvs = none → dropMember k kvs = kvs := by
  intro kvs
  induction kvs with
  | nil => intro _; rfl
  | cons kv kvs ih =>
    obtain ⟨k', v'⟩ := kv
    intro h
    unfold member at h
    by_cases h2 : k'.toList = k
    · rw [if_pos h2] at h; cases h
    · rw [if_neg h2] at h
      have := ih h
      unfold dropMember at this ⊢
      simp only [ne_eq, h2, not_false_eq_true, decide_true, List.filter_cons_of_pos]
      rw [this]

theorem step_put_same {d d' : EV} {k : Key} {v : EV} (h : putKey d k v = some d') : step d' k = some v := by
  cases k with
  | idx i =>
    cases d <;> simp only [putKey] at h <;> try cases h
    rename_i xs
    by_cases hi : 0 ≤ i ∧ i < xs.length
    · rw [if_pos hi] at h; cases h
      have : i.toNat < xs.length := by omega
      simp [step, hi.1, this]
    · rw [if_neg hi] at h; cases h
  | name n =>
    cases d <;> simp only [putKey] at h <;> try cases h
    exact member_put_same n v _

theorem step_put_other {d d' : EV} {k j : Key} {v : EV} (h : putKey d k v = some d') (hj : j ≠ k) : step d' j = step d j := by
  cases k with
  | idx i =>
    cases d <;> simp only [putKey] at h <;> try cases h
    rename_i xs
    by_cases hi : 0 ≤ i ∧ i < xs.length
    · rw [if_pos hi] at h; cases h
      cases j with
      | name n => rfl
      | idx j =>
        by_cases hj0 : 0 ≤ j
        · have : i.toNat ≠ j.toNat := by
            intro he; apply hj; congr 1; omega
          simp [step, hj0, this]
        · simp [step, hj0]
    · rw [if_neg hi] at h; cases h
  | name n =>
    cases d <;> simp only [putKey] at h <;> try cases h
    cases j with
    | name m => exact member_put_other n m v (by intro he; apply hj; rw [he]) _
    | idx j => rfl

theorem step_drop_same {d d' : EV} {k : Key} (h : dropKey d k = some d') :
    step d' k = none ∨ (step d' k = some .null ∧ ∃ i, k = .idx i) := by
  cases k with
  | idx i =>
    cases d <;> simp only [dropKey] at h <;> try cases h
    rename_i xs
    by_cases hi : 0 ≤ i ∧ i < xs.length
    · rw [if_pos hi] at h; cases h
      have : i.toNat < xs.length := by omega
      right
      refine ⟨?_, i, rfl⟩
      simp [step, hi.1, this]
    · rw [if_neg hi] at h; cases h
  | name n =>
    cases d <;> simp only [dropKey] at h <;> try cases h
    exact .inl (member_drop_same n _)

/-- dropping from an array is writing a null -/
theorem dropKey_idx (d : EV) (i : Int) : dropKey d (.idx i) = putKey d (.idx i) .null := by
  cases d <;> rfl

theorem step_drop_other {d d' : EV} {k j : Key} (h : dropKey d k = some d') (hj : j ≠ k) : step d' j = step d j := by
  cases k with
  | idx i => rw [dropKey_idx] at h; exact step_put_other h hj
  | name n =>
    cases d <;> simp only [dropKey] at h <;> try cases h
    cases j with
    | name m => exact member_drop_other n m (by intro he; apply hj; rw [he]) _
    | idx j => rfl

theorem putKey_isSome (d : EV) (k : Key) (v : EV) : (∃ d', putKey d k v = some d') ↔ Accepts d k := by
  cases k with
  | idx i =>
    cases d with
    | array xs =>
      simp only [putKey, Accepts]
      by_cases hi : 0 ≤ i ∧ i < xs.length
      · rw [if_pos hi]; exact ⟨fun _ => ⟨xs, rfl, hi⟩, fun _ => ⟨_, rfl⟩⟩
      · rw [if_neg hi]
        constructor
        · rintro ⟨_, h⟩; cases h
        · rintro ⟨ys, h, h2⟩; cases h; exact absurd h2 hi
    | _ => simp [putKey, Accepts]
  | name n => cases d <;> simp [putKey, Accepts]

theorem dropKey_isSome (d : EV) (k : Key) : (∃ d', dropKey d k = some d') ↔ Accepts d k := by
  cases k with
  | idx i => rw [show dropKey d (.idx i) = putKey d (.idx i) .null from dropKey_idx d i]; exact putKey_isSome d (.idx i) .null
  | name n => cases d <;> simp [dropKey, Accepts]

theorem accepts_of_step {d : EV} {k : Key} {w : EV} (h : step d k = some w) : Accepts d k := by
  cases k with
  | idx i =>
    cases d <;> simp only [step] at h <;> try cases h
    rename_i xs
    by_cases hi : 0 ≤ i
    · rw [if_pos hi] at h
      have := (List.getElem?_eq_some_iff.1 h).1
      exact ⟨xs, rfl, hi, by omega⟩
    · rw [if_neg hi] at h; cases h
  | name n =>
    cases d <;> simp only [step] at h <;> try cases h
    exact ⟨_, rfl⟩

theorem putKey_noop {d d' : EV} {k : Key} {v : EV} (h : putKey d k v = some d') (hs : step d k = some v) : d' = d := by
  cases k with
  | idx i =>
    cases d <;> simp only [putKey] at h <;> try cases h
    rename_i xs
    by_cases hi : 0 ≤ i ∧ i < xs.length
    · rw [if_pos hi] at h; cases h
      simp only [step, hi.1, if_true] at hs
      congr 1
      apply List.ext_getElem?
      intro n
      rw [List.getElem?_set]
      by_cases hn : i.toNat = n
      · rw [if_pos hn, if_pos (by omega), ← hn, hs]
      · rw [if_neg hn]
    · rw [if_neg hi] at h; cases h
  | name n =>
    cases d <;> simp only [putKey] at h <;> try cases h
    rw [putMember_noop n v _ hs]

theorem dropKey_noop {d d' : EV} {k : Key} (h : dropKey d k = some d') (hs : step d k = none) : d' = d := by
  cases k with
  | idx i =>
    rw [dropKey_idx] at h
    obtain ⟨xs, rfl, h0, h1⟩ := (putKey_isSome d (.idx i) .null).1 ⟨_, h⟩
    simp only [step, h0, if_true] at hs
    have := List.getElem?_eq_none_iff.1 hs
    omega
  | name n =>
    cases d <;> simp only [dropKey] at h <;> try cases h
    rw [dropMember_noop n _ hs]

theorem get_cons (k : Key) (ks : Path) (v : EV) : get (k :: ks) v = (step v k).bind (get ks) := rfl

theorem get_single (k : Key) (v : EV) : get [k] v = step v k := by
  rw [get_cons]
  cases step v k <;> rfl

theorem get_append (p q : Path) : ∀ (v : EV), get (p ++ q) v = (get p v).bind (get q) := by
  induction p with
  | nil => intro v; rfl
  | cons k ks ih =>
    intro v
    rw [List.cons_append, get_cons, get_cons]
    cases step v k with
    | none => rfl
    | some w => simp only [Option.bind_some]; exact ih w

theorem get_none_of_prefix {p q : Path} {v : EV} (h : get p v = none) (hp : p <+: q) : get q v = none := by
  obtain ⟨r, rfl⟩ := hp
  rw [get_append, h]; rfl

/-- what a change at one key has to do for the lemmas below -/
structure Local (f : EV → Key → Option EV) : Prop where
  other : ∀ {d d' : EV} {k j : Key}, f d k = some d' → j ≠ k → step d' j = step d j
  some_iff : ∀ (d : EV) (k : Key), (∃ d', f d k = some d') ↔ Accepts d k

theorem local_put (v : EV) : Local (fun d k => putKey d k v) := ⟨fun h hj => step_put_other h hj, fun d k => putKey_isSome d k v⟩

theorem local_drop : Local dropKey := ⟨fun h hj => step_drop_other h hj, dropKey_isSome⟩

theorem change_cons2 (f : EV → Key → Option EV) (k j : Key) (ks : Path) (v : EV) :
    change f (k :: j :: ks) v = (step v k).bind fun w => (change f (j :: ks) w).bind (putKey v k) := rfl

/-- a change below a key -/
theorem change_cons {f : EV → Key → Option EV} {k : Key} {ks : Path} {v v' : EV} (hne : ks ≠ []) :
    change f (k :: ks) v = some v' ↔ ∃ w w', step v k = some w ∧ change f ks w = some w' ∧ putKey v k w' = some v' := by
  cases ks with
  | nil => exact absurd rfl hne
  | cons j ks =>
    rw [change_cons2]
    cases step v k with
    | none => simp
    | some w =>
      simp only [Option.bind_some]
      cases hc : change f (j :: ks) w with
      | none => simp [hc]
      | some w' => simp [hc]

theorem change_single (f : EV → Key → Option EV) (k : Key) (v : EV) : change f [k] v = f v k := rfl

theorem change_append {f : EV → Key → Option EV} (r : Path) (hr : r ≠ []) : ∀ (q : Path) (t t' : EV), change f (q ++ r) t = some t' →
    ∃ w w', get q t = some w ∧ change f r w = some w' ∧ get q t' = some w' := by
  intro q
  induction q with
  | nil => intro t t' h; exact ⟨t, t', rfl, h, rfl⟩
  | cons k q ih =>
    intro t t' h
    rw [List.cons_append, change_cons (by simp [hr])] at h
    obtain ⟨w, w', hs, hc, hp⟩ := h
    obtain ⟨u, u', h1, h2, h3⟩ := ih w w' hc
    refine ⟨u, u', ?_, h2, ?_⟩
    · rw [get_cons, hs]; exact h1
    · rw [get_cons, step_put_same hp]; exact h3

theorem change_some {f : EV → Key → Option EV} (hf : Local f) (k : Key) : ∀ (q : Path) (t : EV),
    (∃ t', change f (q ++ [k]) t = some t') ↔ ∃ d, get q t = some d ∧ Accepts d k := by
  intro q
  induction q with
  | nil =>
    intro t
    rw [List.nil_append, change_single, hf.some_iff]
    constructor
    · intro h; exact ⟨t, rfl, h⟩
    · rintro ⟨d, h, ha⟩; cases h; exact ha
  | cons j q ih =>
    intro t
    rw [List.cons_append]
    constructor
    · rintro ⟨t', h⟩
      rw [change_cons (by simp)] at h
      obtain ⟨w, w', hs, hc, _⟩ := h
      obtain ⟨d, hd, ha⟩ := (ih w).1 ⟨w', hc⟩
      exact ⟨d, by rw [get_cons, hs]; exact hd, ha⟩
    · rintro ⟨d, hd, ha⟩
      rw [get_cons] at hd
      cases hs : step t j with
      | none => rw [hs] at hd; cases hd
      | some w =>
        rw [hs] at hd
        obtain ⟨w', hc⟩ := (ih w).2 ⟨d, hd, ha⟩
        obtain ⟨t', hp⟩ := (putKey_isSome t j w').2 (accepts_of_step hs)
        exact ⟨t', (change_cons (by simp)).2 ⟨w, w', hs, hc, hp⟩⟩

theorem apart_cons {k : Key} {p q : Path} (h : Apart (k :: p) (k :: q)) : Apart p q := by
  constructor
  · intro hp; exact h.1 (List.cons_prefix_cons.2 ⟨rfl, hp⟩)
  · intro hq; exact h.2 (List.cons_prefix_cons.2 ⟨rfl, hq⟩)

theorem change_apart {f : EV → Key → Option EV} (hf : Local f) : ∀ (p q : Path) (t t' : EV), change f p t = some t' →
    Apart p q → get q t' = get q t := by
  intro p
  induction p with
  | nil => intro q t t' h _; simp [change] at h
  | cons k ks ih =>
    intro q t t' h hap
    cases q with
    | nil => exact absurd List.nil_prefix hap.2
    | cons j q =>
      rw [get_cons, get_cons]
      by_cases hks : ks = []
      · subst hks
        rw [change_single] at h
        have hj : j ≠ k := by
          intro he; subst he
          exact hap.1 (List.cons_prefix_cons.2 ⟨rfl, List.nil_prefix⟩)
        rw [hf.other h hj]
      · rw [change_cons hks] at h
        obtain ⟨w, w', hs, hc, hp⟩ := h
        by_cases hj : j = k
        · subst hj
          rw [step_put_same hp, hs]
          exact ih q w w' hc (apart_cons hap)
        · rw [step_put_other hp hj]

/-- the change is of what the path leads to -/
theorem set_get {p : Path} {v t t' : EV} (h : setAt p v t = some t') : get p t' = some v := by
  unfold setAt at h
  cases hp : p.reverse with
  | nil => rw [List.reverse_eq_nil_iff] at hp; subst hp; simp [change] at h
  | cons k q' =>
    have hpq := List.reverse_eq_cons_iff.1 hp
    generalize q'.reverse = q at hpq
    subst hpq
    obtain ⟨w, w', _, hc, hg⟩ := change_append [k] (by simp) q t t' h
    rw [get_append, hg, Option.bind_some, get_single]
    exact step_put_same hc

theorem delete_get {p : Path} {t t' : EV} (h : deleteAt p t = some t') : Gone p (get p t') := by
  unfold deleteAt at h
  cases hp : p.reverse with
  | nil => rw [List.reverse_eq_nil_iff] at hp; subst hp; simp [change] at h
  | cons k q' =>
    have hpq := List.reverse_eq_cons_iff.1 hp
    generalize q'.reverse = q at hpq
    subst hpq
    obtain ⟨w, w', _, hc, hg⟩ := change_append [k] (by simp) q t t' h
    rw [get_append, hg, Option.bind_some, get_single]
    rcases step_drop_same hc with h1 | ⟨h1, i, hi⟩
    · exact .inl h1
    · exact .inr ⟨h1, i, by rw [hi]; simp⟩

theorem set_noop : ∀ {p : Path} {v t t' : EV}, setAt p v t = some t' → get p t = some v → t' = t := by
  intro p
  induction p with
  | nil => intro v t t' h _; simp [setAt, change] at h
  | cons k ks ih =>
    intro v t t' h hg
    unfold setAt at h
    by_cases hks : ks = []
    · subst hks
      rw [change_single] at h
      rw [get_single] at hg
      exact putKey_noop h hg
    · rw [change_cons hks] at h
      obtain ⟨w, w', hs, hc, hp⟩ := h
      rw [get_cons, hs] at hg
      have := ih (v := v) hc hg
      subst this
      exact putKey_noop hp hs

theorem delete_noop : ∀ {p : Path} {t t' : EV}, deleteAt p t = some t' → get p t = none → t' = t := by
  intro p
  induction p with
  | nil => intro t t' h _; simp [deleteAt, change] at h
  | cons k ks ih =>
    intro t t' h hg
    unfold deleteAt at h
    by_cases hks : ks = []
    · subst hks
      rw [change_single] at h
      rw [get_single] at hg
      exact dropKey_noop h hg
    · rw [change_cons hks] at h
      obtain ⟨w, w', hs, hc, hp⟩ := h
      rw [get_cons, hs] at hg
      have := ih hc hg
      subst this
      exact putKey_noop hp hs

theorem contains_covers : ∀ (p q : Path), contains p q = true ↔ Covers p q := by
  intro p
  induction p with
  | nil => intro q; simp [contains, Covers]
  | cons k p ih =>
    intro q
    cases q with
    | nil => simp [contains, Covers]
    | cons j q =>
      unfold contains
      rw [Bool.and_eq_true, ih q]
      have hkm : keyMatches k j = true ↔ k = Key.name ['*'] ∨ k = j := by
        cases k with
        | idx i => simp [keyMatches, eq_comm]
        | name n =>
          unfold keyMatches
          by_cases hn : n = ['*']
          · simp [hn]
          · simp [hn, eq_comm]
      rw [hkm]
      unfold Covers
      constructor
      · rintro ⟨h0, hl, hr⟩
        refine ⟨by simpa using hl, ?_⟩
        intro i hi
        cases i with
        | zero => simpa using h0
        | succ i => simpa using hr i (by simpa using hi)
      · rintro ⟨hl, hr⟩
        refine ⟨by simpa using hr 0 (by simp), by simpa using hl, ?_⟩
        intro i hi
        simpa using hr (i + 1) (by simpa using hi)

end Pulumi.Paths
