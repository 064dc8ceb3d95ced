import Verif.Dynamic.PickleSpec

/-! # Lemmas on the pickling of dynamic providers -/

namespace Pulumi.Dynamic.Pickle

/-! ## Induction over objects -/

theorem Obj.ind {P : Obj → Prop} (int : ∀ n, P (.int n)) (str : ∀ o s, P (.str o s))
    (list : ∀ o xs, (∀ x ∈ xs, P x) → P (.list o xs)) (set : ∀ o xs, (∀ x ∈ xs, P x) → P (.set o xs))
    (dict : ∀ o (kvs : List (Key × Obj)), (∀ kv ∈ kvs, P kv.2) → P (.dict o kvs)) : ∀ o, P o := by
  intro v
  refine Obj.rec (motive_1 := P) (motive_2 := fun xs => ∀ x ∈ xs, P x)
    (motive_3 := fun kvs => ∀ kv ∈ kvs, P kv.2) (motive_4 := fun kv => P kv.2)
    int str (fun o xs h => list o xs h) (fun o xs h => set o xs h) (fun o kvs h => dict o kvs h) ?_ ?_ ?_ ?_ ?_ v
  · intro x hx; simp at hx
  · intro x xs hx hxs y hy
    rcases List.mem_cons.1 hy with rfl | hy
    · exact hx
    · exact hxs y hy
  · intro x hx; simp at hx
  · intro x xs hx hxs y hy
    rcases List.mem_cons.1 hy with rfl | hy
    · exact hx
    · exact hxs y hy
  · intro k v h; exact h

/-! ## Sorting -/

theorem Key.le_total (a b : Key) : Key.le a b = true ∨ Key.le b a = true := by
  cases a <;> cases b <;> simp [Key.le, String.le_total, Int.le_total]

theorem Key.le_trans {a b c : Key} (h : Key.le a b = true) (h' : Key.le b c = true) : Key.le a c = true := by
  cases a <;> cases b <;> cases c <;> simp [Key.le] at h h' ⊢
  · exact String.le_trans h h'
  · exact Int.le_trans h h'

theorem Key.le_antisymm {a b : Key} (h : Key.le a b = true) (h' : Key.le b a = true) : a = b := by
  cases a <;> cases b <;> simp [Key.le] at h h' ⊢
  · exact String.le_antisymm h h'
  · exact Int.le_antisymm h h'

theorem insert_comm {α : Type} {p q : Key × α} (hne : p.1 ≠ q.1) (l : List (Key × α)) :
    insert p (insert q l) = insert q (insert p l) := by
  have hex : ¬ (Key.le p.1 q.1 = true ∧ Key.le q.1 p.1 = true) := fun h => hne (Key.le_antisymm h.1 h.2)
  induction l with
  | nil =>
    rcases Key.le_total p.1 q.1 with h | h
    · have h' : ¬ Key.le q.1 p.1 = true := fun h' => hex ⟨h, h'⟩
      simp [insert, h, h']
    · have h' : ¬ Key.le p.1 q.1 = true := fun h' => hex ⟨h', h⟩
      simp [insert, h, h']
  | cons r l ih =>
    by_cases hp : Key.le p.1 r.1 = true <;> by_cases hq : Key.le q.1 r.1 = true
    · rcases Key.le_total p.1 q.1 with h | h
      · have h' : ¬ Key.le q.1 p.1 = true := fun h' => hex ⟨h, h'⟩
        simp [insert, h, h', hp, hq]
      · have h' : ¬ Key.le p.1 q.1 = true := fun h' => hex ⟨h', h⟩
        simp [insert, h, h', hp, hq]
    · have h' : ¬ Key.le q.1 p.1 = true := fun h' => hq (Key.le_trans h' hp)
      simp [insert, hp, hq, h']
    · have h' : ¬ Key.le p.1 q.1 = true := fun h' => hp (Key.le_trans h' hq)
      simp [insert, hp, hq, h']
    · simp [insert, hp, hq, ih]

theorem sort_perm {α : Type} {l l' : List (Key × α)} (h : l.Perm l') (hn : (l.map (·.1)).Nodup) : sort l = sort l' := by
  induction h with
  | nil => rfl
  | cons x _ ih =>
    simp only [List.map_cons, List.nodup_cons] at hn
    simp only [sort, ih hn.2]
  | swap x y l =>
    simp only [List.map_cons, List.nodup_cons, List.mem_cons, not_or] at hn
    simp only [sort]
    exact insert_comm hn.1.1 _
  | trans h1 _ ih1 ih2 => rw [ih1 hn, ih2 ((h1.map (·.1)).nodup_iff.1 hn)]

theorem mem_insert {α : Type} {p q : Key × α} {l : List (Key × α)} : q ∈ insert p l ↔ q = p ∨ q ∈ l := by
  induction l with
  | nil => simp [insert]
  | cons r l ih =>
    unfold insert
    split
    · simp
    · simp only [List.mem_cons, ih]
      constructor
      · rintro (h | h | h)
        · exact .inr (.inl h)
        · exact .inl h
        · exact .inr (.inr h)
      · rintro (h | h | h)
        · exact .inr (.inl h)
        · exact .inl h
        · exact .inr (.inr h)

theorem mem_sort {α : Type} {q : Key × α} {l : List (Key × α)} : q ∈ sort l ↔ q ∈ l := by
  induction l with
  | nil => simp [sort]
  | cons p l ih => simp [sort, mem_insert, ih]

theorem insert_sorted {α : Type} {p : Key × α} {l : List (Key × α)}
    (h : l.Pairwise fun a b => Key.le a.1 b.1 = true) : (insert p l).Pairwise fun a b => Key.le a.1 b.1 = true := by
  induction l with
  | nil => simp [insert]
  | cons r l ih =>
    unfold insert
    split
    · rename_i hp
      refine List.Pairwise.cons ?_ h
      intro a ha
      rcases List.mem_cons.1 ha with rfl | ha
      · exact hp
      · exact Key.le_trans hp ((List.pairwise_cons.1 h).1 a ha)
    · rename_i hp
      rw [List.pairwise_cons] at h
      refine List.Pairwise.cons ?_ (ih h.2)
      intro a ha
      rcases mem_insert.1 ha with rfl | ha
      · rcases Key.le_total a.1 r.1 with h' | h'
        · exact absurd h' hp
        · exact h'
      · exact h.1 a ha

theorem sort_sorted {α : Type} (l : List (Key × α)) : (sort l).Pairwise fun a b => Key.le a.1 b.1 = true := by
  induction l with
  | nil => simp [sort]
  | cons p l ih => exact insert_sorted ih

theorem sort_of_sorted {α : Type} {l : List (Key × α)} (h : l.Pairwise fun a b => Key.le a.1 b.1 = true) :
    sort l = l := by
  induction l with
  | nil => rfl
  | cons p l ih =>
    rw [List.pairwise_cons] at h
    rw [sort, ih h.2]
    cases l with
    | nil => rfl
    | cons q l =>
      unfold insert
      rw [if_pos (h.1 q (List.mem_cons_self ..))]

theorem sort_idem {α : Type} (l : List (Key × α)) : sort (sort l) = sort l := sort_of_sorted (sort_sorted l)

theorem insert_map {α β : Type} (f : α → β) (p : Key × α) (l : List (Key × α)) :
    insert (p.1, f p.2) (l.map fun q => (q.1, f q.2)) = (insert p l).map fun q => (q.1, f q.2) := by
  induction l with
  | nil => rfl
  | cons r l ih =>
    simp only [List.map_cons, insert]
    split
    · rfl
    · simp [ih]

theorem sort_map {α β : Type} (f : α → β) (l : List (Key × α)) :
    sort (l.map fun q => (q.1, f q.2)) = (sort l).map fun q => (q.1, f q.2) := by
  induction l with
  | nil => rfl
  | cons p l ih => simp only [List.map_cons, sort, ih, insert_map]

/-- The keys are of one type. -/
def Uniform {α : Type} (l : List (Key × α)) : Prop := (∀ p ∈ l, ∃ s, p.1 = .str s) ∨ ∀ p ∈ l, ∃ n, p.1 = .int n

theorem sorted_uniform {α : Type} {l : List (Key × α)} (h : Uniform l) : sorted l = .ok (sort l) := by
  unfold sorted
  have : (l.any (·.1.isStr) && l.any (fun p => !p.1.isStr)) = false := by
    rcases h with h | h
    · have : l.any (fun p => !p.1.isStr) = false := by
        rw [List.any_eq_false]
        intro p hp
        obtain ⟨s, e⟩ := h p hp
        simp [e, Key.isStr]
      rw [this, Bool.and_false]
    · have : l.any (·.1.isStr) = false := by
        rw [List.any_eq_false]
        intro p hp
        obtain ⟨s, e⟩ := h p hp
        simp [e, Key.isStr]
      rw [this, Bool.false_and]
  rw [this]
  rfl

theorem uniform_sort {α : Type} {l : List (Key × α)} (h : Uniform l) : Uniform (sort l) := by
  rcases h with h | h
  · exact .inl fun p hp => h p (mem_sort.1 hp)
  · exact .inr fun p hp => h p (mem_sort.1 hp)

theorem sorted_perm {α : Type} {l l' : List (Key × α)} (h : l.Perm l') (hn : (l.map (·.1)).Nodup) :
    sorted l = sorted l' := by
  unfold sorted
  rw [h.any_eq, h.any_eq, sort_perm h hn]

/-! ## Writers as maps -/

theorem saveList_map (limit layers : Nat) (xs : List Obj) : saveList limit layers xs = xs.map (save limit layers) := by
  induction xs with
  | nil => rfl
  | cons x xs ih => simp [saveList, ih]

theorem saveKvs_map (limit layers : Nat) (kvs : List (Key × Obj)) :
    saveKvs limit layers kvs = kvs.map fun q => (q.1, save limit layers q.2) := by
  induction kvs with
  | nil => rfl
  | cons x xs ih => obtain ⟨k, x⟩ := x; simp [saveKvs, ih]

theorem map_eq_of_zip {β : Type} {f : Obj → β} {xs ys : List Obj} (hl : xs.length = ys.length)
    (h : ∀ p ∈ xs.zip ys, f p.1 = f p.2) : xs.map f = ys.map f := by
  induction xs generalizing ys with
  | nil =>
    cases ys with
    | nil => rfl
    | cons _ _ => simp at hl
  | cons x xs ih =>
    cases ys with
    | nil => simp at hl
    | cons y ys =>
      simp only [List.zip_cons_cons, List.mem_cons, forall_eq_or_imp] at h
      simp only [List.map_cons, h.1]
      rw [ih (by simpa using hl) h.2]

theorem mapKvs_eq_of_zip {β : Type} {f : Obj → β} {xs ys : List (Key × Obj)} (hl : xs.map (·.1) = ys.map (·.1))
    (h : ∀ p ∈ xs.zip ys, f p.1.2 = f p.2.2) : (xs.map fun q => (q.1, f q.2)) = ys.map fun q => (q.1, f q.2) := by
  induction xs generalizing ys with
  | nil =>
    cases ys with
    | nil => rfl
    | cons _ _ => simp at hl
  | cons x xs ih =>
    cases ys with
    | nil => simp at hl
    | cons y ys =>
      simp only [List.map_cons, List.cons.injEq] at hl
      simp only [List.zip_cons_cons, List.mem_cons, forall_eq_or_imp] at h
      simp only [List.map_cons, h.1, hl.1]
      rw [ih hl.2 h.2]

theorem save_same (limit n : Nat) {a b : Obj} (h : SameData a b) : save limit (n + 1) a = save limit (n + 1) b := by
  induction h with
  | int n => rfl
  | str o s => rfl
  | list hl _ ih => simp only [save, saveList_map, map_eq_of_zip hl ih]
  | set hl _ ih => simp only [save, saveList_map, map_eq_of_zip hl ih]
  | @dict oid xs zs ys hn hk _ hp ih =>
    have h1 : saveKvs limit (n + 1) xs = saveKvs limit (n + 1) zs := by
      rw [saveKvs_map, saveKvs_map, mapKvs_eq_of_zip hk ih]
    have hperm : (saveKvs limit (n + 1) zs).Perm (saveKvs limit (n + 1) ys) := by
      rw [saveKvs_map, saveKvs_map]
      exact hp.map _
    have hnd : ((saveKvs limit (n + 1) zs).map (·.1)).Nodup := by
      rw [saveKvs_map, List.map_map]
      show (zs.map (·.1)).Nodup
      rw [← hk]
      exact hn
    simp only [save, saveDict, h1]
    congr 1
    funext d m
    simp only [batchSetItems, sorted_perm hperm hnd]

/-! ## Depth and layers -/

/-- The two writers succeed with the same result. -/
def Agree (w w' : Writer) (d d' : Nat) : Prop := ∀ m, ∃ r, w d m = .ok r ∧ w' d' m = .ok r

theorem agree_emit (ops : List Op) (d d' : Nat) : Agree (emit ops) (emit ops) d d' := fun m => ⟨_, rfl, rfl⟩

theorem agree_andThen {a b a' b' : Writer} {d d' : Nat} (h : Agree a a' d d') (h' : Agree b b' d d') :
    Agree (a.andThen b) (a'.andThen b') d d' := by
  intro m
  obtain ⟨⟨x, m1⟩, h1, h2⟩ := h m
  obtain ⟨⟨y, m2⟩, h3, h4⟩ := h' m1
  exact ⟨(x ++ y, m2), by simp [Writer.andThen, h1, h3, bind, Except.bind, pure, Except.pure],
    by simp [Writer.andThen, h2, h4, bind, Except.bind, pure, Except.pure]⟩

theorem agree_writeAll {α : Type} {f g : α → Writer} {d d' : Nat} {l : List α} (h : ∀ x ∈ l, Agree (f x) (g x) d d') :
    Agree (writeAll (l.map f)) (writeAll (l.map g)) d d' := by
  induction l with
  | nil => exact agree_emit [] d d'
  | cons x l ih =>
    exact agree_andThen (h x (List.mem_cons_self ..)) (ih fun y hy => h y (List.mem_cons_of_mem _ hy))

theorem agree_memoized (r : Ref) (head : List Op) {w w' : Writer} {d d' : Nat} (h : Agree w w' d d') :
    Agree (memoized r head w) (memoized r head w') d d' := by
  intro m
  unfold memoized
  cases hi : m.idxOf? r with
  | some i => exact ⟨_, rfl, rfl⟩
  | none => exact agree_andThen (agree_emit _ d d') h (m ++ [r])

theorem agree_key (k : Key) (d d' : Nat) : Agree (saveKey k) (saveKey k) d d' := by
  cases k with
  | int n => exact agree_emit _ d d'
  | str s => exact agree_memoized _ _ (agree_emit _ d d')

theorem batch_eq {limit n : Nat} {items : List (Key × Writer)} (hu : Uniform items) {d : Nat}
    (h : d + (n + 1) ≤ limit) (m : Memo) :
    batchSetItems limit (n + 1) items d m = setItems (sort items) (d + (n + 1)) m := by
  induction n generalizing items d with
  | zero =>
    have : ¬ d ≥ limit := by omega
    simp only [batchSetItems, this, if_false, sorted_uniform hu]
  | succ n ih =>
    have : ¬ d ≥ limit := by omega
    rw [batchSetItems]
    simp only [this, if_false, sorted_uniform hu]
    rw [ih (uniform_sort hu) (by omega), sort_idem]
    congr 1
    omega

theorem agree_save {limit n limit' n' k : Nat} {o : Obj} (hs : Sortable o) (hk : NestedAtMost k o) {d d' : Nat}
    (h : d + k * (n + 1) ≤ limit) (h' : d' + k * (n' + 1) ≤ limit') :
    Agree (save limit (n + 1) o) (save limit' (n' + 1) o) d d' := by
  induction o using Obj.ind generalizing k d d' with
  | int i => exact agree_emit _ d d'
  | str oid s => exact agree_memoized _ _ (agree_emit _ d d')
  | list oid xs ih =>
    cases hs with
    | list hs =>
      cases hk with
      | list hk =>
        simp only [save, saveList_map]
        exact agree_memoized _ _ (agree_andThen (agree_emit _ d d') (agree_andThen
          (agree_writeAll fun x hx => ih x hx (hs x hx) (hk x hx) h h') (agree_emit _ d d')))
  | set oid xs ih =>
    cases hs with
    | set hs =>
      cases hk with
      | set hk =>
        simp only [save, saveList_map]
        exact agree_memoized _ _ (agree_andThen (agree_emit _ d d') (agree_andThen
          (agree_writeAll fun x hx => ih x hx (hs x hx) (hk x hx) h h') (agree_emit _ d d')))
  | dict oid kvs ih =>
    cases hs with
    | dict hu hs =>
      cases hk with
      | @dict k _ _ hk =>
        have hmul : (k + 1) * (n + 1) = k * (n + 1) + (n + 1) := Nat.succ_mul k (n + 1)
        have hmul' : (k + 1) * (n' + 1) = k * (n' + 1) + (n' + 1) := Nat.succ_mul k (n' + 1)
        simp only [save, saveDict, saveKvs_map]
        refine agree_memoized _ _ fun m => ?_
        have huni : ∀ l j, Uniform (kvs.map fun q => (q.1, save l j q.2)) := by
          intro l j
          rcases hu with hu | hu
          · left
            intro p hp
            obtain ⟨q, hq, rfl⟩ := List.mem_map.1 hp
            exact hu q hq
          · right
            intro p hp
            obtain ⟨q, hq, rfl⟩ := List.mem_map.1 hp
            exact hu q hq
        rw [batch_eq (huni _ _) (by omega), batch_eq (huni _ _) (by omega), sort_map, sort_map]
        unfold setItems
        cases hemp : (sort kvs).isEmpty with
        | true =>
          have : sort kvs = [] := by simpa using hemp
          rw [this]
          exact ⟨_, rfl, rfl⟩
        | false =>
          have e : ∀ l j, ((sort kvs).map fun q => (q.1, save l j q.2)).isEmpty = false := by
            intro l j
            cases hq : sort kvs with
            | nil => rw [hq] at hemp; cases hemp
            | cons a l => rfl
          rw [e, e]
          simp only [Bool.false_eq_true, if_false, List.map_map]
          refine agree_andThen (agree_emit _ _ _) (agree_andThen (agree_writeAll fun x hx => ?_) (agree_emit _ _ _)) m
          refine agree_andThen (agree_key _ _ _) ?_
          have hx' := mem_sort.1 hx
          exact ih x hx' (hs x hx') (hk x hx') (by omega) (by omega)

/-- Too deep: a dict is not written. -/
theorem batch_fails {limit n : Nat} {items : List (Key × Writer)} {d : Nat} (h : limit ≤ d + n) (m : Memo) :
    ∃ e, batchSetItems limit (n + 1) items d m = .error e := by
  induction n generalizing items d with
  | zero =>
    have : d ≥ limit := by omega
    exact ⟨.recursionError, by simp only [batchSetItems, this, if_true]⟩
  | succ n ih =>
    rw [batchSetItems]
    by_cases hd : d ≥ limit
    · exact ⟨.recursionError, by simp only [hd, if_true]⟩
    · simp only [hd, if_false]
      cases hs : sorted items with
      | error e => exact ⟨e, rfl⟩
      | ok l => exact ih (by omega)

theorem batch_recursion {limit n : Nat} {items : List (Key × Writer)} (hu : Uniform items) {d : Nat}
    (h : limit ≤ d + n) (m : Memo) : batchSetItems limit (n + 1) items d m = .error .recursionError := by
  induction n generalizing items d with
  | zero =>
    have : d ≥ limit := by omega
    simp only [batchSetItems, this, if_true]
  | succ n ih =>
    rw [batchSetItems]
    by_cases hd : d ≥ limit
    · simp only [hd, if_true]
    · simp only [hd, if_false, sorted_uniform hu]
      exact ih (uniform_sort hu) (by omega)

end Pulumi.Dynamic.Pickle
