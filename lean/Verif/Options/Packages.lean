import Verif.Options.Contents
/-! # Lemmas for C32: providers keyed by package -/
namespace Pulumi.Options

theorem setKey_keys (kvs : List (String × Val)) (k : String) (v : Val) :
    (setKey kvs k v).map (·.1) = if k ∈ kvs.map (·.1) then kvs.map (·.1) else kvs.map (·.1) ++ [k] := by
  induction kvs with
  | nil => simp [setKey]
  | cons p kvs ih =>
    unfold setKey
    by_cases hk : p.1 = k
    · simp [hk]
    · have hk' : ¬ k = p.1 := fun h => hk h.symm
      simp only [hk, if_false, List.map_cons, ih, List.mem_cons, hk', false_or]
      split <;> simp

theorem setKey_nodup {kvs : List (String × Val)} (h : (kvs.map (·.1)).Nodup) (k : String) (v : Val) :
    ((setKey kvs k v).map (·.1)).Nodup := by
  rw [setKey_keys]
  split
  · exact h
  · rename_i hk
    rw [List.nodup_append]
    refine ⟨h, by simp, ?_⟩
    intro a ha b hb he
    simp only [List.mem_singleton] at hb
    subst hb he
    exact hk ha

theorem lookup_cons_if (j : String) (p : String × Val) (kvs : List (String × Val)) :
    (p :: kvs).lookup j = if j = p.1 then some p.2 else kvs.lookup j := by
  obtain ⟨a, b⟩ := p
  by_cases h : j = a
  · subst h; simp
  · have h2 : (j == a) = false := by simp [h]
    simp only [List.lookup, h2, h, if_false]

theorem setKey_lookup (kvs : List (String × Val)) (k j : String) (v : Val) :
    (setKey kvs k v).lookup j = if j = k then some v else kvs.lookup j := by
  induction kvs with
  | nil => rw [setKey, lookup_cons_if]
  | cons p kvs ih =>
    obtain ⟨a, b⟩ := p
    unfold setKey
    by_cases hk : a = k
    · subst hk
      simp only [if_true, lookup_cons_if]
      split <;> rfl
    · simp only [hk, if_false, lookup_cons_if, ih]
      by_cases hj : j = a
      · subst hj
        simp [hk]
      · simp [hj]

/-- Providers keyed by package, as pairs. -/
def pairs (pkg : Nat → Option String) : List Val → List (String × Val)
  | [] => []
  | .obj n :: rest => ((pkg n).getD "", .obj n) :: pairs pkg rest
  | _ :: rest => pairs pkg rest

theorem collapsed_pairs (pkg : Nat → Option String) (xs : List Val) : ∀ acc,
    collapsed pkg acc xs = (pairs pkg xs).foldl (fun a p => setKey a p.1 p.2) acc := by
  induction xs with
  | nil => intro acc; rfl
  | cons x xs ih => intro acc; cases x <;> simp [collapsed, pairs, ih]

theorem pairs_append (pkg : Nat → Option String) (xs ys : List Val) : pairs pkg (xs ++ ys) = pairs pkg xs ++ pairs pkg ys := by
  induction xs with
  | nil => rfl
  | cons x xs ih => cases x <;> simp [pairs, ih]

theorem collapsed_append (pkg : Nat → Option String) (xs ys : List Val) (acc : List (String × Val)) :
    collapsed pkg acc (xs ++ ys) = collapsed pkg (collapsed pkg acc xs) ys := by
  simp [collapsed_pairs, pairs_append, List.foldl_append]

theorem collapsed_nodup (pkg : Nat → Option String) (xs : List Val) : ∀ acc : List (String × Val), (acc.map (·.1)).Nodup →
    ((collapsed pkg acc xs).map (·.1)).Nodup := by
  induction xs with
  | nil => exact fun acc h => h
  | cons x xs ih =>
    intro acc h
    cases x with
    | obj n => exact ih _ (setKey_nodup h ..)
    | _ => exact ih _ h

theorem foldl_lookup (ps : List (String × Val)) (acc : List (String × Val)) (k : String) :
    (ps.foldl (fun a p => setKey a p.1 p.2) acc).lookup k = (ps.reverse.lookup k).or (acc.lookup k) := by
  induction ps generalizing acc with
  | nil => simp
  | cons p ps ih =>
    rw [List.foldl_cons, ih, setKey_lookup, List.reverse_cons, List.lookup_append, lookup_cons_if]
    by_cases hk : k = p.1
    · cases hl : List.lookup k ps.reverse <;> simp [hk]
    · cases hl : List.lookup k ps.reverse <;> simp [hk]

theorem getD_pkg {pkg : Nat → Option String} {xs : List Val} (hp : ∀ p ∈ xs, IsProvider pkg p) :
    pairs pkg xs = xs.map fun p => (match p with | .obj n => (pkg n).getD "" | _ => "", p) := by
  induction xs with
  | nil => rfl
  | cons x xs ih =>
    obtain ⟨n, s, rfl, hs⟩ := hp x (List.mem_cons_self ..)
    simp [pairs, ih fun q hq => hp q (List.mem_cons_of_mem _ hq)]

/-- The last provider for the package wins. -/
theorem collapsed_lookup {pkg : Nat → Option String} {xs : List Val} (hp : ∀ p ∈ xs, IsProvider pkg p) (k : String) (p : Val) :
    (collapsed pkg [] xs).lookup k = some p ↔
      ∃ l r, xs = l ++ p :: r ∧ ProviderFor pkg p k ∧ ∀ q ∈ r, ¬ ProviderFor pkg q k := by
  rw [collapsed_pairs, foldl_lookup]
  simp only [List.lookup_nil, Option.or_none]
  induction xs with
  | nil => simp [pairs]
  | cons x xs ih =>
    have hp' : ∀ q ∈ xs, IsProvider pkg q := fun q hq => hp q (List.mem_cons_of_mem _ hq)
    have ih := ih hp'
    obtain ⟨n, s, rfl, hs⟩ := hp x (List.mem_cons_self ..)
    simp only [pairs, hs, Option.getD_some, List.reverse_cons, List.lookup_append]
    constructor
    · intro h
      cases hl : List.lookup k (pairs pkg xs).reverse with
      | some q =>
        rw [hl] at h ih
        simp only [Option.some_or, Option.some.injEq] at h
        subst h
        obtain ⟨l, r, h1, h2, h3⟩ := ih.1 rfl
        exact ⟨.obj n :: l, r, by rw [h1]; rfl, h2, h3⟩
      | none =>
        rw [hl] at h
        simp only [Option.none_or, List.lookup_cons, List.lookup_nil] at h
        by_cases hk : k = s
        · subst hk
          simp only [beq_self_eq_true, Option.some.injEq] at h
          subst h
          refine ⟨[], xs, rfl, ⟨n, rfl, hs⟩, ?_⟩
          intro q hq ⟨m, hm, hks⟩
          have : (k, q) ∈ pairs pkg xs := by
            rw [getD_pkg hp', List.mem_map]
            exact ⟨q, hq, by rw [hm]; simp [hks]⟩
          rw [List.lookup_eq_none_iff] at hl
          have := hl (k, q) (by simpa using this)
          simp at this
        · have h2 : (k == s) = false := by simp [hk]
          rw [h2] at h
          cases h
    · rintro ⟨l, r, h1, h2, h3⟩
      cases l with
      | nil =>
        simp only [List.nil_append, List.cons.injEq] at h1
        obtain ⟨h1, rfl⟩ := h1
        subst h1
        obtain ⟨m, hm, hk⟩ := h2
        cases hm
        have hk' : s = k := by rw [hs] at hk; exact Option.some.inj hk
        subst hk'
        have hl : List.lookup s (pairs pkg xs).reverse = none := by
          rw [List.lookup_eq_none_iff]
          intro q hq
          rw [List.mem_reverse, getD_pkg hp', List.mem_map] at hq
          obtain ⟨y, hy, rfl⟩ := hq
          obtain ⟨m, t, rfl, ht⟩ := hp' y hy
          have : ¬ s = t := fun h => h3 _ hy ⟨m, rfl, h ▸ ht⟩
          simp [ht, this]
        rw [hl]
        simp
      | cons y l =>
        simp only [List.cons_append, List.cons.injEq] at h1
        rw [ih.2 ⟨l, r, h1.2, h2, h3⟩]
        rfl

/-! ## Collapsing twice -/

theorem setKey_comm {acc : List (String × Val)} {k j : String} (hk : k ∈ acc.map (·.1)) (hne : k ≠ j) (v w : Val) :
    setKey (setKey acc j w) k v = setKey (setKey acc k v) j w := by
  induction acc with
  | nil => simp at hk
  | cons p acc ih =>
    obtain ⟨a, b⟩ := p
    by_cases h1 : a = k
    · subst h1
      simp [setKey, hne]
    · by_cases h2 : a = j
      · subst h2
        simp [setKey, h1]
      · simp only [setKey, h1, h2, if_false, List.cons.injEq, true_and]
        apply ih
        simp only [List.map_cons, List.mem_cons] at hk
        rcases hk with hk | hk
        · exact absurd hk.symm h1
        · exact hk

theorem setKey_mem (acc : List (String × Val)) (k : String) (v : Val) : k ∈ (setKey acc k v).map (·.1) := by
  rw [setKey_keys]
  split
  · assumption
  · simp

theorem setKey_mem_of_mem {acc : List (String × Val)} {k : String} (j : String) (v : Val) (h : k ∈ acc.map (·.1)) :
    k ∈ (setKey acc j v).map (·.1) := by
  rw [setKey_keys]
  split
  · exact h
  · simp only [List.mem_append]
    exact .inl h

theorem setKey_twice (acc : List (String × Val)) (k : String) (v w : Val) : setKey (setKey acc k v) k w = setKey acc k w := by
  induction acc with
  | nil => simp [setKey]
  | cons p acc ih => by_cases h : p.1 = k <;> simp [setKey, h, ih]

theorem foldl_setKey_comm (ps : List (String × Val)) : ∀ {acc : List (String × Val)} {k : String}, k ∈ acc.map (·.1) →
    k ∉ ps.map (·.1) → ∀ v, setKey (ps.foldl (fun a p => setKey a p.1 p.2) acc) k v =
      ps.foldl (fun a p => setKey a p.1 p.2) (setKey acc k v) := by
  induction ps with
  | nil => exact fun _ _ _ => rfl
  | cons p ps ih =>
    intro acc k hk hn v
    simp only [List.map_cons, List.mem_cons, not_or] at hn
    rw [List.foldl_cons, List.foldl_cons, ih (setKey_mem_of_mem _ _ hk) hn.2, setKey_comm hk hn.1]

theorem foldl_setKey (ps : List (String × Val)) : ∀ (acc : List (String × Val)) (k : String) (v : Val), (ps.map (·.1)).Nodup →
    (setKey ps k v).foldl (fun a p => setKey a p.1 p.2) acc =
      setKey (ps.foldl (fun a p => setKey a p.1 p.2) acc) k v := by
  induction ps with
  | nil => exact fun _ _ _ _ => rfl
  | cons p ps ih =>
    intro acc k v hn
    simp only [List.map_cons, List.nodup_cons] at hn
    have hset : setKey (p :: ps) k v = if p.1 = k then (p.1, v) :: ps else p :: setKey ps k v := rfl
    rw [hset]
    by_cases hk : p.1 = k
    · subst hk
      rw [if_pos rfl, List.foldl_cons, List.foldl_cons, foldl_setKey_comm ps (setKey_mem acc p.1 p.2) hn.1, setKey_twice]
    · rw [if_neg hk, List.foldl_cons, List.foldl_cons, ih _ _ _ hn.2]

/-- Every value is a provider for its key. -/
def Keyed (pkg : Nat → Option String) (kvs : List (String × Val)) : Prop := ∀ p ∈ kvs, ProviderFor pkg p.2 p.1

theorem setKey_mem_iff {acc : List (String × Val)} {k : String} {v : Val} {p : String × Val} (h : p ∈ setKey acc k v) :
    p = (k, v) ∨ p ∈ acc := by
  induction acc with
  | nil => simpa [setKey] using h
  | cons q acc ih =>
    unfold setKey at h
    split at h
    · rename_i hk
      rcases List.mem_cons.1 h with h | h
      · left; rw [h, hk]
      · right; exact List.mem_cons_of_mem _ h
    · rcases List.mem_cons.1 h with h | h
      · right; rw [h]; exact List.mem_cons_self ..
      · rcases ih h with h | h
        · exact .inl h
        · exact .inr (List.mem_cons_of_mem _ h)

theorem collapsed_keyed {pkg : Nat → Option String} {xs : List Val} : ∀ {acc : List (String × Val)}, (∀ p ∈ xs, IsProvider pkg p) →
    Keyed pkg acc → Keyed pkg (collapsed pkg acc xs) := by
  induction xs with
  | nil => exact fun _ h => h
  | cons x xs ih =>
    intro acc hp hk
    obtain ⟨n, s, rfl, hs⟩ := hp x (List.mem_cons_self ..)
    refine ih (fun q hq => hp q (List.mem_cons_of_mem _ hq)) ?_
    intro q hq
    rcases setKey_mem_iff hq with hq | hq
    · rw [hq]
      exact ⟨n, rfl, by simp [hs]⟩
    · exact hk q hq

theorem pairs_values {pkg : Nat → Option String} {kvs : List (String × Val)} (hk : Keyed pkg kvs) :
    pairs pkg (kvs.map (·.2)) = kvs := by
  induction kvs with
  | nil => rfl
  | cons p kvs ih =>
    obtain ⟨n, hn, hs⟩ := hk p (List.mem_cons_self ..)
    obtain ⟨k, v⟩ := p
    simp only at hn hs
    subst hn
    simp [pairs, hs, ih fun q hq => hk q (List.mem_cons_of_mem _ hq)]

theorem foldl_foldl (ps : List (String × Val)) (acc : List (String × Val)) :
    (ps.foldl (fun a p => setKey a p.1 p.2) []).foldl (fun a p => setKey a p.1 p.2) acc =
      ps.foldl (fun a p => setKey a p.1 p.2) acc := by
  have key : ∀ (ps init : List (String × Val)) (acc : List (String × Val)), (init.map (·.1)).Nodup →
      (ps.foldl (fun a p => setKey a p.1 p.2) init).foldl (fun a p => setKey a p.1 p.2) acc =
        ps.foldl (fun a p => setKey a p.1 p.2) (init.foldl (fun a p => setKey a p.1 p.2) acc) := by
    intro ps
    induction ps with
    | nil => exact fun _ _ _ => rfl
    | cons p ps ih =>
      intro init acc hn
      rw [List.foldl_cons, List.foldl_cons, ih _ _ (setKey_nodup hn ..), foldl_setKey _ _ _ _ hn]
  simpa using key ps [] acc (by simp)

/-- Collapsing what has been collapsed changes nothing, whatever came before. -/
theorem collapsed_collapsed {pkg : Nat → Option String} {xs : List Val} (hp : ∀ p ∈ xs, IsProvider pkg p)
    (acc : List (String × Val)) : collapsed pkg acc ((collapsed pkg [] xs).map (·.2)) = collapsed pkg acc xs := by
  have hk := collapsed_keyed (acc := []) hp (by intro p hp; cases hp)
  rw [collapsed_pairs, pairs_values hk, collapsed_pairs, collapsed_pairs, foldl_foldl]

theorem collapsed_isProvider {pkg : Nat → Option String} {xs : List Val} (hp : ∀ p ∈ xs, IsProvider pkg p) :
    ∀ p ∈ (collapsed pkg [] xs).map (·.2), IsProvider pkg p := by
  intro p h
  obtain ⟨q, hq, rfl⟩ := List.mem_map.1 h
  obtain ⟨n, hn, hs⟩ := collapsed_keyed (acc := []) hp (by intro p hp; cases hp) q hq
  exact ⟨n, _, hn, hs⟩

theorem collapsed_ne_nil {pkg : Nat → Option String} {xs : List Val} (hp : ∀ p ∈ xs, IsProvider pkg p) (hx : xs ≠ []) :
    collapsed pkg [] xs ≠ [] := by
  cases xs with
  | nil => exact absurd rfl hx
  | cons x xs =>
    obtain ⟨n, s, rfl, hs⟩ := hp x (List.mem_cons_self ..)
    have : ∀ (ys : List Val) (acc : List (String × Val)), acc ≠ [] → collapsed pkg acc ys ≠ [] := by
      intro ys
      induction ys with
      | nil => exact fun _ h => h
      | cons y ys ih =>
        intro acc h
        cases y with
        | obj n =>
          apply ih
          cases acc with
          | nil => simp [setKey]
          | cons p acc => unfold setKey; split <;> simp
        | _ => exact ih _ h
    exact this xs [((pkg n).getD "", .obj n)] (by simp)

end Pulumi.Options
