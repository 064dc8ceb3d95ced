import Verif.Construct.Spec
import Verif.Urn.Lemmas
/-! # Lemmas about construction -/
namespace Pulumi.Construct
open Pulumi.Urn (Text splitChar consHead splitChar_noSep splitChar_append)

/-! ## Dicts -/

theorem lookup_cons_if {α : Type} (j : Text) (p : Text × α) (d : List (Text × α)) :
    (p :: d).lookup j = if j = p.1 then some p.2 else d.lookup j := by
  obtain ⟨a, b⟩ := p
  by_cases h : j = a
  · subst h; simp
  · have h2 : (j == a) = false := by simp [h]
    simp only [List.lookup, h2, h, if_false]

theorem lookup_set (d : Dict) (k j : Text) (v : Provider) :
    (Dict.set d k v).lookup j = if j = k then some v else d.lookup j := by
  induction d with
  | nil => rw [Dict.set, lookup_cons_if]
  | cons p d ih =>
    obtain ⟨a, b⟩ := p
    unfold Dict.set
    by_cases hk : a = k
    · subst hk
      simp only [if_true, lookup_cons_if]
      split <;> rfl
    · simp only [hk, if_false, lookup_cons_if, ih]
      by_cases hj : j = a
      · subst hj
        simp [hk]
      · simp [hj]

theorem lookup_foldl {α : Type} (key : α → Text) (val : α → Provider) (xs : List α) : ∀ (d : Dict) (k : Text),
    (xs.foldl (fun d x => Dict.set d (key x) (val x)) d).lookup k =
      ((xs.reverse.find? fun x => key x = k).map val).or (d.lookup k) := by
  induction xs with
  | nil => intro d k; simp
  | cons x xs ih =>
    intro d k
    rw [List.foldl_cons, ih, lookup_set, List.reverse_cons, List.find?_append]
    cases hf : List.find? (fun x => decide (key x = k)) xs.reverse with
    | some y => simp
    | none =>
      by_cases hk : k = key x
      · subst hk; simp
      · have : ¬ key x = k := fun h => hk h.symm
        simp [hk, this]

theorem find_last {α : Type} (f : α → Bool) (xs : List α) (x : α) :
    xs.reverse.find? f = some x ↔ ∃ l r, xs = l ++ x :: r ∧ f x = true ∧ ∀ y ∈ r, f y = false := by
  rw [List.find?_eq_some_iff_append]
  constructor
  · rintro ⟨hx, as, bs, hab, has⟩
    have : xs = bs.reverse ++ x :: as.reverse := by
      have := congrArg List.reverse hab
      simpa using this
    refine ⟨bs.reverse, as.reverse, this, hx, ?_⟩
    intro y hy
    have := has y (by simpa using hy)
    simpa using this
  · rintro ⟨l, r, h, hx, hr⟩
    refine ⟨hx, r.reverse, l.reverse, by rw [h]; simp, ?_⟩
    intro y hy
    have := hr y (by simpa using hy)
    simp [this]

theorem lookup_update (a b : Dict) (k : Text) :
    (Dict.update a b).lookup k = ((b.reverse.find? fun p => p.1 = k).map (·.2)).or (a.lookup k) :=
  lookup_foldl (fun p : Text × Provider => p.1) (fun p : Text × Provider => p.2) b a k

theorem listed_iff (o : Providers) (k : Text) (p : Provider) : (ownProviders o).lookup k = some p ↔ Listed o k p := by
  cases o with
  | none =>
    simp only [ownProviders, List.lookup_nil]
    constructor
    · intro h; cases h
    · intro h; cases h
  | seq ps =>
    simp only [ownProviders]
    rw [lookup_foldl (fun p : Provider => p.package) (fun p => p)]
    simp only [List.lookup_nil, Option.or_none, Option.map_id']
    constructor
    · intro h
      obtain ⟨l, r, rfl, hx, hr⟩ := (find_last _ _ _).1 h
      simp only [decide_eq_true_eq] at hx
      subst hx
      exact .seq fun q hq => by have := hr q hq; simpa using this
    · intro h
      cases h with
      | @seq l _ r hr =>
        exact (find_last _ _ _).2 ⟨l, r, rfl, by simp, fun y hy => by simp [hr y hy]⟩
  | map kvs =>
    simp only [ownProviders]
    rw [lookup_update]
    simp only [List.lookup_nil, Option.or_none, Option.map_eq_some_iff]
    constructor
    · rintro ⟨x, h, rfl⟩
      obtain ⟨l, r, rfl, hx, hr⟩ := (find_last _ _ _).1 h
      simp only [decide_eq_true_eq] at hx
      obtain ⟨x1, x2⟩ := x
      subst hx
      exact .map fun q hq => by have := hr q hq; simpa using this
    · intro h
      cases h with
      | @map l _ _ r hr =>
        exact ⟨(k, p), (find_last _ _ _).2 ⟨l, r, rfl, by simp, fun y hy => by simp [hr y hy]⟩, rfl⟩

theorem not_listed_iff (o : Providers) (k : Text) : (ownProviders o).lookup k = none ↔ ∀ q, ¬ Listed o k q := by
  constructor
  · intro h q hq
    rw [← listed_iff, h] at hq
    cases hq
  · intro h
    cases hl : (ownProviders o).lookup k with
    | none => rfl
    | some q => exact absurd ((listed_iff ..).1 hl) (h q)

/-! ## Packages -/

theorem splitChar_ne_nil (sep : Char) (s : Text) : splitChar sep s ≠ [] := by
  induction s with
  | nil => simp [splitChar]
  | cons c s ih =>
    unfold splitChar
    split
    · simp
    · cases h : splitChar sep s with
      | nil => exact absurd h ih
      | cons a b => simp [consHead]

theorem splitChar_cons {sep : Char} {s x : Text} {xs : List Text} (h : splitChar sep s = x :: xs) :
    sep ∉ x ∧ ((xs = [] ∧ s = x) ∨ ∃ s', s = x ++ sep :: s' ∧ splitChar sep s' = xs) := by
  induction s generalizing x xs with
  | nil =>
    simp only [splitChar, List.cons.injEq] at h
    obtain ⟨rfl, rfl⟩ := h
    exact ⟨by simp, .inl ⟨rfl, rfl⟩⟩
  | cons c s ih =>
    unfold splitChar at h
    split at h
    · rename_i hc
      subst hc
      simp only [List.cons.injEq] at h
      obtain ⟨rfl, rfl⟩ := h
      exact ⟨by simp, .inr ⟨s, rfl, rfl⟩⟩
    · rename_i hc
      cases hs : splitChar sep s with
      | nil => exact absurd hs (splitChar_ne_nil _ _)
      | cons y ys =>
        rw [hs] at h
        simp only [consHead, List.cons.injEq] at h
        obtain ⟨rfl, rfl⟩ := h
        obtain ⟨h1, h2⟩ := ih hs
        refine ⟨by simp [h1, Ne.symm hc], ?_⟩
        rcases h2 with ⟨rfl, rfl⟩ | ⟨s', rfl, h2⟩
        · exact .inl ⟨rfl, rfl⟩
        · exact .inr ⟨s', rfl, h2⟩

theorem packageOf_iff (t k : Text) : packageOf t = some k ↔ PackageIs t k := by
  unfold packageOf
  constructor
  · intro h
    split at h
    · rename_i pkg m n hs
      cases h
      obtain ⟨h1, h2⟩ := splitChar_cons hs
      rcases h2 with ⟨h2, _⟩ | ⟨s', rfl, h2⟩
      · cases h2
      · obtain ⟨h3, h4⟩ := splitChar_cons h2
        rcases h4 with ⟨h4, _⟩ | ⟨s'', rfl, h4⟩
        · cases h4
        · obtain ⟨h5, h6⟩ := splitChar_cons h4
          rcases h6 with ⟨_, rfl⟩ | ⟨s3, _, h6⟩
          · exact ⟨m, _, rfl, h1, h3, h5⟩
          · exact absurd h6 (splitChar_ne_nil _ _)
    · cases h
  · rintro ⟨m, n, rfl, h1, h2, h3⟩
    rw [splitChar_append h1, splitChar_append h2, splitChar_noSep h3]

theorem PackageIs.unique {t k k' : Text} (h : PackageIs t k) (h' : PackageIs t k') : k = k' := by
  rw [← packageOf_iff] at h h'
  rw [h] at h'
  cases h'
  rfl

/-! ## Choosing providers -/

theorem ambient_iff (o : Providers) (t : Text) (p : Provider) :
    ambient (ownProviders o) (packageOf t) = some p ↔ ∃ k, PackageIs t k ∧ k ≠ [] ∧ Listed o k p := by
  constructor
  · intro h
    cases hp : packageOf t with
    | none => rw [hp] at h; cases h
    | some k =>
      rw [hp] at h
      simp only [ambient] at h
      split at h
      · cases h
      · exact ⟨k, (packageOf_iff ..).1 hp, ‹_›, (listed_iff ..).1 h⟩
  · rintro ⟨k, h1, h2, h3⟩
    rw [(packageOf_iff ..).2 h1]
    simp only [ambient, h2, if_false]
    exact (listed_iff ..).2 h3

theorem ambient_none {o : Providers} {t k : Text} (h : PackageIs t k) :
    ambient (ownProviders o) (packageOf t) = none ↔ (k ≠ [] → ∀ q, ¬ Listed o k q) := by
  rw [(packageOf_iff ..).2 h]
  simp only [ambient]
  by_cases hk : k = []
  · simp [hk]
  · simp only [hk, if_false, not_listed_iff, ne_eq, not_false_eq_true, true_implies]

theorem addExplicit_lookup (t : Text) (o : Opts) (k : Text) (p : Provider) :
    (addExplicit (ownProviders o.providers) (packageOf t) o.provider).lookup k = some p ↔
      Listed o.providers k p ∨ Explicit t o k p := by
  have base : (ownProviders o.providers).lookup k = some p ∧ (∀ q, ¬ Explicit t o k q) ∨ Explicit t o k p ↔
      Listed o.providers k p ∨ Explicit t o k p := by
    rw [listed_iff]
    constructor
    · rintro (h | h)
      · exact .inl h.1
      · exact .inr h
    · rintro (h | h)
      · exact .inl ⟨h, fun q hq => hq.2.2.2 p h⟩
      · exact .inr h
  rw [← base]
  unfold addExplicit
  split
  · rename_i k' p' hk' hp'
    rw [packageOf_iff] at hk'
    split
    · rename_i he
      have none : ∀ q, ¬ Explicit t o k q := by
        rintro q ⟨_, h2, h3, _⟩
        exact h3 ((h2.unique hk').trans he)
      simp [none]
    · rename_i he
      split
      · rename_i hs
        have none : ∀ q, ¬ Explicit t o k q := by
          rintro q ⟨_, h2, h3, h4⟩
          obtain rfl := h2.unique hk'
          rw [(not_listed_iff ..).2 h4] at hs
          cases hs
        simp [none]
      · rename_i hs
        have hs' : (ownProviders o.providers).lookup k' = none := by
          cases h : (ownProviders o.providers).lookup k' with
          | none => rfl
          | some q => rw [h] at hs; exact absurd rfl hs
        rw [lookup_set]
        by_cases hk : k = k'
        · subst hk
          have ex : ∀ q, Explicit t o k q ↔ q = p' := by
            intro q
            constructor
            · rintro ⟨h1, _⟩
              rw [hp'] at h1
              cases h1
              rfl
            · rintro rfl
              exact ⟨hp', hk', he, (not_listed_iff ..).1 hs'⟩
          simp only [if_true, Option.some.injEq, hs', reduceCtorEq, false_and, false_or, ex]
          exact eq_comm
        · have none : ∀ q, ¬ Explicit t o k q := by
            rintro q ⟨_, h2, _⟩
            exact hk (h2.unique hk')
          simp [hk, none]
  · rename_i hne
    have none : ∀ q, ¬ Explicit t o k q := by
      rintro q ⟨h1, h2, _⟩
      exact hne k q ((packageOf_iff ..).2 h2) h1
    simp [none]

theorem set_keys (d : Dict) (k : Text) (v : Provider) :
    (Dict.set d k v).map (·.1) = if k ∈ d.map (·.1) then d.map (·.1) else d.map (·.1) ++ [k] := by
  induction d with
  | nil => simp [Dict.set]
  | cons p d ih =>
    obtain ⟨a, b⟩ := p
    unfold Dict.set
    by_cases hk : a = k
    · simp [hk]
    · have hk' : ¬ k = a := fun h => hk h.symm
      simp only [hk, if_false, List.map_cons, ih, List.mem_cons, hk', false_or]
      split <;> simp

theorem set_nodup {d : Dict} (h : (d.map (·.1)).Nodup) (k : Text) (v : Provider) : ((Dict.set d k v).map (·.1)).Nodup := by
  rw [set_keys]
  split
  · exact h
  · rename_i hk
    rw [List.nodup_append]
    refine ⟨h, by simp, ?_⟩
    intro a ha b hb he
    simp only [List.mem_singleton] at hb
    subst hb he
    exact hk ha

theorem foldl_nodup {α : Type} (key : α → Text) (val : α → Provider) (xs : List α) : ∀ (d : Dict), (d.map (·.1)).Nodup →
    ((xs.foldl (fun d x => Dict.set d (key x) (val x)) d).map (·.1)).Nodup := by
  induction xs with
  | nil => exact fun _ h => h
  | cons x xs ih => exact fun d h => ih _ (set_nodup h _ _)

theorem own_nodup (o : Providers) : ((ownProviders o).map (·.1)).Nodup := by
  cases o with
  | none => simp [ownProviders]
  | seq ps => exact foldl_nodup (fun p : Provider => p.package) (fun p => p) ps [] (by simp)
  | map kvs => exact foldl_nodup (fun p : Text × Provider => p.1) (fun p => p.2) kvs [] (by simp)

theorem addExplicit_nodup {d : Dict} (h : (d.map (·.1)).Nodup) (pkg : Option Text) (p : Option Provider) :
    ((addExplicit d pkg p).map (·.1)).Nodup := by
  unfold addExplicit
  split
  · split
    · exact h
    · split
      · exact h
      · exact set_nodup h _ _
  · exact h

theorem last_of_nodup {d : Dict} (h : (d.map (·.1)).Nodup) (k : Text) :
    (d.reverse.find? fun p => p.1 = k).map (·.2) = d.lookup k := by
  induction d with
  | nil => rfl
  | cons p d ih =>
    simp only [List.map_cons, List.nodup_cons] at h
    rw [List.reverse_cons, List.find?_append, lookup_cons_if]
    by_cases hk : k = p.1
    · subst hk
      have : List.find? (fun q => decide (q.1 = p.1)) d.reverse = none := by
        rw [List.find?_eq_none]
        intro q hq he
        simp only [decide_eq_true_eq] at he
        exact h.1 (he ▸ List.mem_map_of_mem (by simpa using hq))
      simp [this]
    · have : ¬ p.1 = k := fun h => hk h.symm
      simp only [hk, if_false, ← ih h.2]
      cases List.find? (fun p => decide (p.1 = k)) d.reverse <;> simp [this]

/-- What is offered to children, in terms of what the parent offers. -/
theorem offered_iff (t : Text) (o : Opts) (pp : Option Dict) (inh : Dict) (k : Text) (p : Provider) :
    (getProviders t (packageOf t) o pp inh).2.lookup k = some p ↔
      Listed o.providers k p ∨ Explicit t o k p ∨
        ((∀ q, ¬ Listed o.providers k q) ∧ (∀ q, ¬ Explicit t o k q) ∧ inh.lookup k = some p) := by
  simp only [getProviders]
  rw [lookup_update, last_of_nodup (addExplicit_nodup (own_nodup _) _ _)]
  cases hl : (addExplicit (ownProviders o.providers) (packageOf t) o.provider).lookup k with
  | some q =>
    have hq := (addExplicit_lookup ..).1 hl
    simp only [Option.some_or, Option.some.injEq]
    constructor
    · rintro rfl
      rcases hq with h | h
      · exact .inl h
      · exact .inr (.inl h)
    · rintro (h | h | ⟨h1, h2, _⟩)
      · have := (addExplicit_lookup t o k p).2 (.inl h)
        rw [hl] at this
        cases this
        rfl
      · have := (addExplicit_lookup t o k p).2 (.inr h)
        rw [hl] at this
        cases this
        rfl
      · rcases hq with h | h
        · exact absurd h (h1 q)
        · exact absurd h (h2 q)
  | none =>
    have hq : ∀ q, ¬ (Listed o.providers k q ∨ Explicit t o k q) := by
      intro q h
      rw [← addExplicit_lookup, hl] at h
      cases h
    simp only [Option.none_or]
    constructor
    · intro h
      exact .inr (.inr ⟨fun q h => hq q (.inl h), fun q h => hq q (.inr h), h⟩)
    · rintro (h | h | ⟨_, _, h⟩)
      · exact absurd (.inl h) (hq p)
      · exact absurd (.inr h) (hq p)
      · exact h

/-- The provider of the resource itself. -/
theorem chosen_iff (t : Text) (o : Opts) (pp : Option Dict) (inh : Dict) (p : Provider) :
    (getProviders t (packageOf t) o pp inh).1 = some p ↔
      o.provider = some p ∨ (o.provider = none ∧ ∃ k, PackageIs t k ∧ k ≠ [] ∧ Listed o.providers k p) ∨
        (o.provider = none ∧ ∃ k d, PackageIs t k ∧ (k ≠ [] → ∀ q, ¬ Listed o.providers k q) ∧ pp = some d ∧
          d.lookup k = some p) := by
  simp only [getProviders]
  cases ho : o.provider with
  | some q => simp
  | none =>
    simp only [Option.none_or, reduceCtorEq, true_and, false_or]
    cases ha : ambient (ownProviders o.providers) (packageOf t) with
    | some q =>
      obtain ⟨k, h1, h2, h3⟩ := (ambient_iff ..).1 ha
      simp only [Option.some_or, Option.some.injEq]
      constructor
      · rintro rfl
        exact .inl ⟨k, h1, h2, h3⟩
      · rintro (⟨k', h1', h2', h3'⟩ | ⟨k', d, h1', h2', _⟩)
        · have := (ambient_iff ..).2 ⟨k', h1', h2', h3'⟩
          rw [ha] at this
          cases this
          rfl
        · obtain rfl := h1.unique h1'
          exact absurd h3 (h2' h2 q)
    | none =>
      simp only [Option.none_or]
      have hn : ∀ k, PackageIs t k → k ≠ [] → ∀ q, ¬ Listed o.providers k q := fun k hk => (ambient_none hk).1 ha
      constructor
      · intro h
        cases hpp : pp with
        | none => rw [hpp] at h; cases h
        | some d =>
          rw [hpp] at h
          simp only [Option.bind_some, getProvider] at h
          split at h
          · cases h
          · rename_i k hk
            have hk' := (packageOf_iff ..).1 hk
            exact .inr ⟨k, d, hk', hn k hk', rfl, h⟩
      · rintro (⟨k, h1, h2, h3⟩ | ⟨k, d, h1, _, rfl, h3⟩)
        · exact absurd h3 (hn k h1 h2 p)
        · simp only [Option.bind_some, getProvider, (packageOf_iff ..).2 h1]
          exact h3

end Pulumi.Construct
