import Verif.Dynamic.PickleLemmas

/-! # Theorems on the pickling of dynamic providers -/

namespace Pulumi.Dynamic.Pickle

/-! ## C107 -/

/-- **C107.** A provider whose dicts hold the same entries, inserted in another order at any depth, is pickled to the same
bytes. -/
theorem same_data_same_bytes {a b : Obj} (h : SameData a b) (limit depth : Nat) (m : Module) :
    (serializeProvider limit depth m a).1 = (serializeProvider limit depth m b).1 := by
  simp only [serializeProvider, dumps, save_same limit m.layers h]

/-- Non-trivial instance: dicts in dicts. -/
example : SameData
    (.dict 0 [(.str "a", .int 1), (.str "b", .dict 1 [(.int 5, .int 6), (.int 2, .str 3 "x")])])
    (.dict 0 [(.str "b", .dict 1 [(.int 2, .str 3 "x"), (.int 5, .int 6)]), (.str "a", .int 1)]) := by
  refine .dict (zs := [(.str "a", .int 1), (.str "b", .dict 1 [(.int 2, .str 3 "x"), (.int 5, .int 6)])])
    (by simp) rfl ?_ (List.Perm.swap _ _ _)
  intro p hp
  simp at hp
  rcases hp with rfl | rfl
  · exact .int 1
  · refine .dict (zs := [(.int 5, .int 6), (.int 2, .str 3 "x")]) (by simp) rfl ?_ (List.Perm.swap _ _ _)
    intro p hp
    simp at hp
    rcases hp with rfl | rfl
    · exact .int 6
    · exact .str 3 "x"

/-- Fails for sets: the same set iterated in another order, as in another process, is pickled to other bytes. -/
theorem set_order_matters : ∃ xs ys : List Obj, xs.Perm ys ∧
    (serializeProvider 1000 0 ⟨.c, 0⟩ (.dict 0 [(.str "s", .set 1 xs)])).1 ≠
      (serializeProvider 1000 0 ⟨.c, 0⟩ (.dict 0 [(.str "s", .set 1 ys)])).1 :=
  ⟨[.int 1, .int 2], [.int 2, .int 1], List.Perm.swap _ _ _, fun h => by
    have h' : (Except.ok [.emptyDict, .memoize, .mark, .str "s", .memoize, .emptySet, .memoize, .mark, .int 1, .int 2,
        .addItems, .setItems] : Except Err (List Op)) = .ok [.emptyDict, .memoize, .mark, .str "s", .memoize, .emptySet,
        .memoize, .mark, .int 2, .int 1, .addItems, .setItems] := h
    simp at h'⟩

/-- Fails for shared objects: equal data is pickled to other bytes if the program holds one object twice instead of two
equal objects. -/
theorem sharing_matters :
    (serializeProvider 1000 0 ⟨.c, 0⟩ (.dict 0 [(.str "a", .str 1 "x"), (.str "b", .str 1 "x")])).1 ≠
      (serializeProvider 1000 0 ⟨.c, 0⟩ (.dict 0 [(.str "a", .str 1 "x"), (.str "b", .str 2 "x")])).1 := fun h => by
  have h' : (Except.ok [.emptyDict, .memoize, .mark, .str "a", .memoize, .str "x", .memoize, .str "b", .memoize, .get 2,
      .setItems] : Except Err (List Op)) = .ok [.emptyDict, .memoize, .mark, .str "a", .memoize, .str "x", .memoize,
      .str "b", .memoize, .str "x", .memoize, .setItems] := h
  simp at h'

/-! ## C108 -/

/-- **C108.** A provider is pickled, to bytes that do not depend on how many were pickled before or how deep the stack is,
if the keys of each of its dicts are of one type and the number of providers pickled so far, times the nesting of its
dicts, is within the recursion limit. -/
theorem pickled_alike_partial {o : Obj} (hs : Sortable o) {k : Nat} (hk : NestedAtMost k o) {limit depth limit' depth' : Nat}
    {m m' : Module} (h : depth + k * (m.layers + 1) ≤ limit) (h' : depth' + k * (m'.layers + 1) ≤ limit') :
    ∃ bytes, (serializeProvider limit depth m o).1 = .ok bytes ∧ (serializeProvider limit' depth' m' o).1 = .ok bytes := by
  obtain ⟨r, h1, h2⟩ := agree_save hs hk h h' []
  exact ⟨r.1, by simp only [serializeProvider, dumps, h1]; rfl, by simp only [serializeProvider, dumps, h2]; rfl⟩

/-- Non-trivial instance: the fifth resource of a program. -/
example : Sortable (.dict 0 [(.str "b", .int 1), (.str "a", .dict 1 [(.int 5, .int 6)])]) ∧
    NestedAtMost 2 (.dict 0 [(.str "b", .int 1), (.str "a", .dict 1 [(.int 5, .int 6)])]) ∧ 30 + 2 * (4 + 1) ≤ 1000 ∧
    (serializeProvider 1000 30 ⟨.c, 4⟩ (.dict 0 [(.str "b", .int 1), (.str "a", .dict 1 [(.int 5, .int 6)])])).1 =
      .ok [.emptyDict, .memoize, .mark, .str "a", .memoize, .emptyDict, .memoize, .mark, .int 5, .int 6, .setItems,
        .str "b", .memoize, .int 1, .setItems] := by
  refine ⟨?_, ?_, by omega, by rfl⟩
  · refine .dict (.inl ?_) ?_
    · intro kv h
      simp at h
      rcases h with rfl | rfl <;> exact ⟨_, rfl⟩
    · intro kv h
      simp at h
      rcases h with rfl | rfl
      · exact .int 1
      · refine .dict (.inr ?_) ?_
        · intro kv h
          simp at h
          subst h
          exact ⟨_, rfl⟩
        · intro kv h
          simp at h
          subst h
          exact .int 6
  · refine .dict ?_
    intro kv h
    simp at h
    rcases h with rfl | rfl
    · exact .int _ 1
    · refine .dict ?_
      intro kv h
      simp at h
      subst h
      exact .int _ 6

/-- **C108.** Fails for many resources: each call leaves the pickler one layer deeper, so from a number of dynamic
resources on, the recursion limit, no provider can be pickled any more. -/
theorem too_many_raise {limit depth : Nat} {m : Module} {ps : List Obj}
    (hd : ∀ p ∈ ps, ∃ oid kvs, p = .dict oid kvs) {i : Nat} (hi : limit ≤ depth + m.layers + i)
    {r : Except Err (List Op)} (hr : (serializeAll limit depth m ps).1[i]? = some r) : ∃ e, r = .error e := by
  induction ps generalizing m i with
  | nil => simp [serializeAll] at hr
  | cons p ps ih =>
    cases i with
    | zero =>
      simp only [serializeAll, List.getElem?_cons_zero, Option.some.injEq] at hr
      obtain ⟨oid, kvs, rfl⟩ := hd p (List.mem_cons_self ..)
      obtain ⟨e, he⟩ := batch_fails (items := saveKvs limit (m.layers + 1) kvs) (limit := limit) (n := m.layers)
        (d := depth) (by omega) [Ref.obj oid]
      refine ⟨e, ?_⟩
      rw [← hr]
      simp only [serializeProvider, dumps, save, saveDict, memoized, Writer.andThen, emit]
      simp only [List.idxOf?, List.findIdx?, List.findIdx?.go, List.nil_append, bind, Except.bind, he]
      rfl
    | succ i =>
      simp only [serializeAll, List.getElem?_cons_succ] at hr
      refine ih (m := (serializeProvider limit depth m p).2) (fun q hq => hd q (List.mem_cons_of_mem _ hq)) ?_ hr
      simp only [serializeProvider]
      omega

/-- Non-trivial instance, with a small limit: the fourth resource. -/
example : (serializeAll 3 0 ⟨.c, 0⟩ (List.replicate 4 (.dict 0 [(.str "a", .int 1)]))).1.map Except.isOk =
    [true, true, true, false] := by decide

/-- **C108.** Fails for a dict with keys of two types: pickling the provider raises, although Python can pickle it. -/
theorem mixed_keys_raise {limit depth oid : Nat} (m : Module) {kvs : List (Key × Obj)} {s : String} {n : Int} {x y : Obj}
    (h1 : (.str s, x) ∈ kvs) (h2 : (.int n, y) ∈ kvs) (hl : depth < limit) :
    (serializeProvider limit depth m (.dict oid kvs)).1 = .error .typeError := by
  have hs : sorted (saveKvs limit (m.layers + 1) kvs) = .error .typeError := by
    unfold sorted
    have a : (saveKvs limit (m.layers + 1) kvs).any (·.1.isStr) = true := by
      rw [saveKvs_map, List.any_eq_true]
      exact ⟨_, List.mem_map.2 ⟨_, h1, rfl⟩, rfl⟩
    have b : (saveKvs limit (m.layers + 1) kvs).any (fun p => !p.1.isStr) = true := by
      rw [saveKvs_map, List.any_eq_true]
      exact ⟨_, List.mem_map.2 ⟨_, h2, rfl⟩, rfl⟩
    rw [a, b]
    rfl
  have hd : ¬ depth ≥ limit := by omega
  simp only [serializeProvider, dumps, save, saveDict, memoized, Writer.andThen, emit]
  simp only [List.idxOf?, List.findIdx?, List.findIdx?.go, bind, Except.bind, batchSetItems, hd, if_false,
    hs]
  rfl

/-! ## C109 -/

/-- **C109.** After pickling any number of providers, whether it succeeds or raises, `pickle.Pickler` is what it was. -/
theorem pickler_restored (limit depth : Nat) (m : Module) (ps : List Obj) :
    (serializeAll limit depth m ps).2.pickler = m.pickler := by
  induction ps generalizing m with
  | nil => rfl
  | cons p ps ih =>
    simp only [serializeAll]
    rw [ih]
    rfl

/-- Non-trivial instance: also when pickling raises. -/
example : serializeProvider 1000 0 ⟨.c, 0⟩ (.dict 0 [(.str "a", .int 1), (.int 1, .int 1)]) = (.error .typeError, ⟨.c, 1⟩) := by
  rfl

/-- **C109.** Fails for the methods of the Python pickler, which stay replaced: a dict with keys of two types, which the
Python pickler could pickle before, can not be pickled by it any more after one provider was pickled. -/
theorem patch_remains (limit depth : Nat) (hl : depth < limit) (m : Module) (p : PicklerClass) (provider : Obj) :
    ∃ o : Obj, (∃ bytes, dumps limit 0 depth o = .ok bytes) ∧
      dumps limit (serializeProvider limit depth m provider).2.layers depth o = .error .typeError := by
  refine ⟨.dict 0 [(.str "a", .int 1), (.int 1, .int 1)], ⟨_, rfl⟩, ?_⟩
  exact mixed_keys_raise (limit := limit) (depth := depth) (oid := 0) ⟨p, m.layers⟩
    (kvs := [(.str "a", .int 1), (.int 1, .int 1)]) (s := "a") (n := 1) (x := .int 1) (y := .int 1)
    (List.mem_cons_self ..) (List.mem_cons_of_mem _ (List.mem_cons_self ..)) hl

end Pulumi.Dynamic.Pickle
