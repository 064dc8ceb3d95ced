import Verif.Props.Patch
import Verif.Paths.Theorems
/-!
# Detailed diffs
-/
namespace Pulumi.Props
open Pulumi.Engine (EV Blob RefId)
open Pulumi.Paths (Text Key Path Kind PropertyDiff parse pathText get step member keyText requiresQuote Printable)

variable (hash : Blob → Option String)

/-! ## Specification -/

/-- A name written as it is: letters, digits and underscores, and at least one -/
def plainName (k : String) : Bool := decide (k.toList ≠ []) && !k.toList.any requiresQuote

mutual
/-- All the keys of objects in a value are plain names, and arrays are not longer than a machine can hold. -/
def plainKeys : EV → Bool
  | .array xs => decide (xs.length < 2 ^ 63) && plainKeysList xs
  | .object a => plainKeysKvs a
  | _ => true
def plainKeysList : List EV → Bool
  | [] => true
  | x :: xs => plainKeys x && plainKeysList xs
def plainKeysKvs : List (String × EV) → Bool
  | [] => true
  | (k, v) :: rest => plainName k && plainKeys v && plainKeysKvs rest
end

/-- There is nothing, or null, at a path. -/
def Absent (q : Path) (v : EV) : Prop := get q v = none ∨ get q v = some .null

/-- What a kind of change says of the values at a path: added is what is there now and was not; deleted is what was there and is not;
updated is what was there and is there, but not the same. -/
def ChangeAt (q : Path) (old new : EV) : Kind → Prop
  | .add => Absent q old ∧ ∃ y, get q new = some y ∧ (y = .null → get q old = none)
  | .delete => (∃ x, get q old = some x ∧ (x = .null → get q new = none)) ∧ Absent q new
  | .update => ∃ x y, get q old = some x ∧ get q new = some y ∧ deepEq hash x y = some false
  | _ => False

/-- Two values have something else at a path: one has something there and the other has not, or both have and it is not the same. -/
def DifferAt (q : Path) (old new : EV) : Prop :=
  (∃ x, get q old = some x ∧ x ≠ .null ∧ Absent q new) ∨ (∃ y, get q new = some y ∧ y ≠ .null ∧ Absent q old) ∨
  ∃ x y, get q old = some x ∧ get q new = some y ∧ deepEq hash x y = some false

/-! ## The changes of a diff, with paths for texts -/

mutual
def changes : VDiff → List (Path × Kind)
  | .leaf old new => [([], leafKind old new)]
  | .arr _ _ adds dels _ ups => changesIdx ups ++ adds.map (fun e => ([.idx e.1], .add)) ++ dels.map (fun e => ([.idx e.1], .delete))
  | .obj _ _ adds dels _ ups =>
    changesKey ups ++ adds.map (fun e => ([.name e.1.toList], .add)) ++ dels.map (fun e => ([.name e.1.toList], .delete))
def changesIdx : List (Nat × VDiff) → List (Path × Kind)
  | [] => []
  | (i, d) :: ups => (changes d).map (fun qk => (.idx i :: qk.1, qk.2)) ++ changesIdx ups
def changesKey : List (String × VDiff) → List (Path × Kind)
  | [] => []
  | (k, d) :: ups => (changes d).map (fun qk => (.name k.toList :: qk.1, qk.2)) ++ changesKey ups
end

theorem mem_changesIdx (q : Path) (kd : Kind) : ∀ ups : List (Nat × VDiff), (q, kd) ∈ changesIdx ups ↔
    ∃ i d q', (i, d) ∈ ups ∧ (q', kd) ∈ changes d ∧ q = .idx (Int.ofNat i) :: q'
  | [] => by simp [changesIdx]
  | (i, d) :: ups => by
    simp only [changesIdx, List.mem_append, List.mem_map, Prod.mk.injEq, List.mem_cons, mem_changesIdx q kd ups]
    constructor
    · rintro (⟨⟨q', k'⟩, h1, h2, h3⟩ | ⟨i', d', q', h1, h2, h3⟩)
      · exact ⟨i, d, q', .inl ⟨rfl, rfl⟩, by rw [← h3]; exact h1, h2.symm⟩
      · exact ⟨i', d', q', .inr h1, h2, h3⟩
    · rintro ⟨i', d', q', h1 | h1, h2, h3⟩
      · rw [h1.2] at h2; exact .inl ⟨(q', kd), h2, by rw [h3, h1.1]; rfl, rfl⟩
      · exact .inr ⟨i', d', q', h1, h2, h3⟩

theorem mem_changesKey (q : Path) (kd : Kind) : ∀ ups : List (String × VDiff), (q, kd) ∈ changesKey ups ↔
    ∃ k d q', (k, d) ∈ ups ∧ (q', kd) ∈ changes d ∧ q = .name k.toList :: q'
  | [] => by simp [changesKey]
  | (i, d) :: ups => by
    simp only [changesKey, List.mem_append, List.mem_map, Prod.mk.injEq, List.mem_cons, mem_changesKey q kd ups]
    constructor
    · rintro (⟨⟨q', k'⟩, h1, h2, h3⟩ | ⟨i', d', q', h1, h2, h3⟩)
      · exact ⟨i, d, q', .inl ⟨rfl, rfl⟩, by rw [← h3]; exact h1, h2.symm⟩
      · exact ⟨i', d', q', .inr h1, h2, h3⟩
    · rintro ⟨i', d', q', h1 | h1, h2, h3⟩
      · rw [h1.2] at h2; exact .inl ⟨(q', kd), h2, by rw [h3, h1.1], rfl⟩
      · exact .inr ⟨i', d', q', h1, h2, h3⟩

/-! ## Texts -/

/-- Of a path, every name is plain. -/
def PlainPath (q : Path) : Prop := ∀ k ∈ q, match k with
  | .name n => n ≠ [] ∧ n.any requiresQuote = false
  | .idx i => 0 ≤ i ∧ i < 2 ^ 63

theorem plain_printable {q : Path} (h : PlainPath q) : ∀ k ∈ q, Printable k := by
  intro k hk
  have := h k hk
  cases k with
  | name n =>
    refine ⟨this.1, fun hl => ?_⟩
    have hm : '\\' ∈ n := List.mem_of_getLast? hl
    have := List.any_eq_false.mp this.2 _ hm
    exact this (by decide)
  | idx i => exact ⟨by have := this.1; omega, this.2⟩

theorem pathText_append_name (pre : Path) (n : Text) (hpre : PlainPath pre) (hn : n ≠ [] ∧ n.any requiresQuote = false) :
    pathText (pre ++ [.name n]) = if pathText pre = [] then n else pathText pre ++ '.' :: n := by
  cases pre with
  | nil => simp [pathText, keyText, hn.2]
  | cons k ks =>
    have hne : pathText (k :: ks) ≠ [] := by
      have := hpre k List.mem_cons_self
      cases k with
      | name m => simp only [pathText, keyText, this.2]; simp [this.1]
      | idx i => simp [pathText, keyText]
    rw [if_neg hne]
    simp [pathText, keyText, hn.2]

theorem pathText_append_idx (pre : Path) (i : Nat) : pathText (pre ++ [.idx (Int.ofNat i)]) = elemIn (pathText pre) i := by
  cases pre with
  | nil => simp [pathText, keyText, elemIn, Paths.intText]
  | cons k ks => simp [pathText, keyText, elemIn, Paths.intText]

theorem nameIn_text (pre : Path) (k : String) (hpre : PlainPath pre) (hk : plainName k = true) :
    nameIn (pathText pre) k = pathText (pre ++ [.name k.toList]) := by
  unfold plainName at hk
  simp only [Bool.and_eq_true, decide_eq_true_eq, Bool.not_eq_true'] at hk
  rw [pathText_append_name pre k.toList hpre hk]
  rfl

theorem plainName_of {k : String} (h : k.toList ≠ [] ∧ k.toList.any requiresQuote = false) : plainName k = true := by
  unfold plainName
  rw [h.2, decide_eq_true h.1]; rfl

theorem mem_put {k t : Text} {d p : PropertyDiff} {acc : List (Text × PropertyDiff)} (h : (t, p) ∈ put k d acc) :
    (t = k ∧ p = d) ∨ (t, p) ∈ acc := by
  unfold put at h
  rcases List.mem_cons.mp h with h | h
  · injection h with h1 h2; exact .inl ⟨h1, h2⟩
  · exact .inr (List.mem_filter.mp h).1

theorem keys_put {k t : Text} {d : PropertyDiff} {acc : List (Text × PropertyDiff)} :
    t ∈ (put k d acc).map (·.1) ↔ t = k ∨ t ∈ acc.map (·.1) := by
  unfold put
  simp only [List.map_cons, List.mem_cons, List.mem_map, List.mem_filter, decide_eq_true_eq]
  constructor
  · rintro (h | ⟨e, ⟨h1, _⟩, h2⟩)
    · exact .inl h
    · exact .inr ⟨e, h1, h2⟩
  · rintro (h | ⟨e, h1, h2⟩)
    · exact .inl h
    · by_cases hk : t = k
      · exact .inl hk
      · exact .inr ⟨e, ⟨h1, by rw [h2]; exact hk⟩, h2⟩

theorem mem_putAll {kind : Kind} {t : Text} {p : PropertyDiff} : ∀ {ks : List Text} {acc : List (Text × PropertyDiff)},
    (t, p) ∈ putAll kind ks acc → (t ∈ ks ∧ p = { kind := kind, inputDiff := false }) ∨ (t, p) ∈ acc
  | [], acc, h => .inr h
  | k :: ks, acc, h => by
    unfold putAll at h
    simp only [List.foldl_cons] at h
    rcases mem_putAll (ks := ks) h with ⟨h1, h2⟩ | h
    · exact .inl ⟨List.mem_cons_of_mem _ h1, h2⟩
    · rcases mem_put h with ⟨h1, h2⟩ | h
      · exact .inl ⟨by rw [h1]; exact List.mem_cons_self, h2⟩
      · exact .inr h

theorem keys_putAll {kind : Kind} {t : Text} : ∀ {ks : List Text} {acc : List (Text × PropertyDiff)},
    t ∈ (putAll kind ks acc).map (·.1) ↔ t ∈ ks ∨ t ∈ acc.map (·.1)
  | [], acc => by simp [putAll]
  | k :: ks, acc => by
    have ih := keys_putAll (kind := kind) (t := t) (ks := ks) (acc := put k { kind := kind, inputDiff := false } acc)
    unfold putAll at ih ⊢
    simp only [List.foldl_cons]
    rw [ih, keys_put, List.mem_cons]
    constructor
    · rintro (h | h | h)
      · exact .inl (.inr h)
      · exact .inl (.inl h)
      · exact .inr h
    · rintro ((h | h) | h)
      · exact .inr (.inl h)
      · exact .inl h
      · exact .inr (.inr h)

mutual
theorem detail_nil (pre : Text) : ∀ (d : VDiff) (acc : List (Text × PropertyDiff)), changes d = [] → detail pre d acc = acc
  | .leaf _ _, _, h => by simp [changes] at h
  | .arr _ _ adds dels _ ups, acc, h => by
    simp only [changes, List.append_eq_nil_iff, List.map_eq_nil_iff] at h
    simp only [detail, detailIdx_nil pre ups acc h.1.1, h.1.2, h.2, List.map_nil]; rfl
  | .obj _ _ adds dels _ ups, acc, h => by
    simp only [changes, List.append_eq_nil_iff, List.map_eq_nil_iff] at h
    simp only [detail, detailKey_nil pre ups acc h.1.1, h.1.2, h.2, List.map_nil]; rfl
theorem detailIdx_nil (pre : Text) : ∀ (ups : List (Nat × VDiff)) (acc : List (Text × PropertyDiff)), changesIdx ups = [] →
    detailIdx pre ups acc = acc
  | [], _, _ => by simp only [detailIdx]
  | (i, d) :: ups, acc, h => by
    simp only [changesIdx, List.append_eq_nil_iff, List.map_eq_nil_iff] at h
    simp only [detailIdx, detail_nil _ d acc h.1, detailIdx_nil pre ups acc h.2]
theorem detailKey_nil (pre : Text) : ∀ (ups : List (String × VDiff)) (acc : List (Text × PropertyDiff)), changesKey ups = [] →
    detailKey pre ups acc = acc
  | [], _, _ => by simp only [detailKey]
  | (i, d) :: ups, acc, h => by
    simp only [changesKey, List.append_eq_nil_iff, List.map_eq_nil_iff] at h
    simp only [detailKey, detail_nil _ d acc h.1, detailKey_nil pre ups acc h.2]
end

/-- The paths of a list of changes are plain. -/
def PlainAll (l : List (Path × Kind)) : Prop := ∀ qk ∈ l, PlainPath qk.1

mutual
theorem detail_texts (pre : Path) (hpre : PlainPath pre) : ∀ (d : VDiff) (acc : List (Text × PropertyDiff)), PlainAll (changes d) →
    (∀ t p, (t, p) ∈ detail (pathText pre) d acc →
      (t, p) ∈ acc ∨ ∃ q kd, (q, kd) ∈ changes d ∧ t = pathText (pre ++ q) ∧ p = { kind := kd, inputDiff := false }) ∧
    (∀ t, t ∈ (detail (pathText pre) d acc).map (·.1) ↔ t ∈ acc.map (·.1) ∨ ∃ q kd, (q, kd) ∈ changes d ∧ t = pathText (pre ++ q))
  | .leaf old new, acc, _ => by
    simp only [detail, changes]
    refine ⟨fun t p h => ?_, fun t => ?_⟩
    · rcases mem_put h with ⟨h1, h2⟩ | h
      · exact .inr ⟨[], _, List.mem_singleton.mpr rfl, by simpa using h1, h2⟩
      · exact .inl h
    · rw [keys_put]
      simp only [List.mem_singleton, Prod.mk.injEq]
      constructor
      · rintro (h | h)
        · exact .inr ⟨[], _, ⟨rfl, rfl⟩, by simpa using h⟩
        · exact .inl h
      · rintro (h | ⟨q, kd, ⟨h1, _⟩, h2⟩)
        · exact .inr h
        · rw [h1] at h2; exact .inl (by simpa using h2)
  | .arr _ _ adds dels _ ups, acc, hp => by
    simp only [changes] at hp
    have hpu : PlainAll (changesIdx ups) := fun qk h => hp qk (by simp [h])
    obtain ⟨i1, i2⟩ := detailIdx_texts pre hpre ups acc hpu
    simp only [detail, changes]
    have hel : ∀ i : Nat, elemIn (pathText pre) i = pathText (pre ++ [.idx (Int.ofNat i)]) := fun i => (pathText_append_idx pre i).symm
    refine ⟨fun t p h => ?_, fun t => ?_⟩
    · rcases mem_putAll h with ⟨h1, h2⟩ | h
      · obtain ⟨e, he, rfl⟩ := List.mem_map.mp h1
        exact .inr ⟨[.idx (Int.ofNat e.1)], .delete, List.mem_append_right _ (List.mem_map.mpr ⟨e, he, rfl⟩), hel _, h2⟩
      · rcases mem_putAll h with ⟨h1, h2⟩ | h
        · obtain ⟨e, he, rfl⟩ := List.mem_map.mp h1
          exact .inr ⟨[.idx (Int.ofNat e.1)], .add, List.mem_append_left _ (List.mem_append_right _ (List.mem_map.mpr ⟨e, he, rfl⟩)), hel _, h2⟩
        · rcases i1 t p h with h | ⟨q, kd, h1, h2, h3⟩
          · exact .inl h
          · exact .inr ⟨q, kd, by simp [h1], h2, h3⟩
    · rw [keys_putAll, keys_putAll, i2 t]
      constructor
      · rintro (h | h | h | ⟨q, kd, h1, h2⟩)
        · obtain ⟨e, he, rfl⟩ := List.mem_map.mp h
          exact .inr ⟨[.idx (Int.ofNat e.1)], .delete, List.mem_append_right _ (List.mem_map.mpr ⟨e, he, rfl⟩), hel _⟩
        · obtain ⟨e, he, rfl⟩ := List.mem_map.mp h
          exact .inr ⟨[.idx (Int.ofNat e.1)], .add, List.mem_append_left _ (List.mem_append_right _ (List.mem_map.mpr ⟨e, he, rfl⟩)), hel _⟩
        · exact .inl h
        · exact .inr ⟨q, kd, by simp [h1], h2⟩
      · rintro (h | ⟨q, kd, h1, h2⟩)
        · exact .inr (.inr (.inl h))
        · rcases List.mem_append.mp h1 with h1 | h1
          · rcases List.mem_append.mp h1 with h1 | h1
            · exact .inr (.inr (.inr ⟨q, kd, h1, h2⟩))
            · obtain ⟨e, he, h3⟩ := List.mem_map.mp h1
              injection h3 with h3 _
              exact .inr (.inl (List.mem_map.mpr ⟨e, he, by rw [h2, ← h3]; exact hel _⟩))
          · obtain ⟨e, he, h3⟩ := List.mem_map.mp h1
            injection h3 with h3 _
            exact .inl (List.mem_map.mpr ⟨e, he, by rw [h2, ← h3]; exact hel _⟩)
  | .obj _ _ adds dels _ ups, acc, hp => by
    simp only [changes] at hp
    have hpu : PlainAll (changesKey ups) := fun qk h => hp qk (by simp [h])
    have hadd : ∀ e ∈ adds, nameIn (pathText pre) e.1 = pathText (pre ++ [.name e.1.toList]) := by
      intro e he
      have := hp ([.name e.1.toList], .add) (List.mem_append_left _ (List.mem_append_right _ (List.mem_map.mpr ⟨e, he, rfl⟩))) _
        List.mem_cons_self
      exact nameIn_text pre e.1 hpre (plainName_of this)
    have hdel : ∀ e ∈ dels, nameIn (pathText pre) e.1 = pathText (pre ++ [.name e.1.toList]) := by
      intro e he
      have := hp ([.name e.1.toList], .delete) (List.mem_append_right _ (List.mem_map.mpr ⟨e, he, rfl⟩)) _ List.mem_cons_self
      exact nameIn_text pre e.1 hpre (plainName_of this)
    obtain ⟨i1, i2⟩ := detailKey_texts pre hpre ups acc hpu
    simp only [detail, changes]
    refine ⟨fun t p h => ?_, fun t => ?_⟩
    · rcases mem_putAll h with ⟨h1, h2⟩ | h
      · obtain ⟨e, he, rfl⟩ := List.mem_map.mp h1
        exact .inr ⟨[.name e.1.toList], .delete, List.mem_append_right _ (List.mem_map.mpr ⟨e, he, rfl⟩), hdel e he, h2⟩
      · rcases mem_putAll h with ⟨h1, h2⟩ | h
        · obtain ⟨e, he, rfl⟩ := List.mem_map.mp h1
          exact .inr ⟨[.name e.1.toList], .add, List.mem_append_left _ (List.mem_append_right _ (List.mem_map.mpr ⟨e, he, rfl⟩)), hadd e he, h2⟩
        · rcases i1 t p h with h | ⟨q, kd, h1, h2, h3⟩
          · exact .inl h
          · exact .inr ⟨q, kd, by simp [h1], h2, h3⟩
    · rw [keys_putAll, keys_putAll, i2 t]
      constructor
      · rintro (h | h | h | ⟨q, kd, h1, h2⟩)
        · obtain ⟨e, he, rfl⟩ := List.mem_map.mp h
          exact .inr ⟨[.name e.1.toList], .delete, List.mem_append_right _ (List.mem_map.mpr ⟨e, he, rfl⟩), hdel e he⟩
        · obtain ⟨e, he, rfl⟩ := List.mem_map.mp h
          exact .inr ⟨[.name e.1.toList], .add, List.mem_append_left _ (List.mem_append_right _ (List.mem_map.mpr ⟨e, he, rfl⟩)), hadd e he⟩
        · exact .inl h
        · exact .inr ⟨q, kd, by simp [h1], h2⟩
      · rintro (h | ⟨q, kd, h1, h2⟩)
        · exact .inr (.inr (.inl h))
        · rcases List.mem_append.mp h1 with h1 | h1
          · rcases List.mem_append.mp h1 with h1 | h1
            · exact .inr (.inr (.inr ⟨q, kd, h1, h2⟩))
            · obtain ⟨e, he, h3⟩ := List.mem_map.mp h1
              injection h3 with h3 _
              exact .inr (.inl (List.mem_map.mpr ⟨e, he, by rw [h2, ← h3]; exact hadd e he⟩))
          · obtain ⟨e, he, h3⟩ := List.mem_map.mp h1
            injection h3 with h3 _
            exact .inl (List.mem_map.mpr ⟨e, he, by rw [h2, ← h3]; exact hdel e he⟩)
theorem detailIdx_texts (pre : Path) (hpre : PlainPath pre) : ∀ (ups : List (Nat × VDiff)) (acc : List (Text × PropertyDiff)),
    PlainAll (changesIdx ups) →
    (∀ t p, (t, p) ∈ detailIdx (pathText pre) ups acc →
      (t, p) ∈ acc ∨ ∃ q kd, (q, kd) ∈ changesIdx ups ∧ t = pathText (pre ++ q) ∧ p = { kind := kd, inputDiff := false }) ∧
    (∀ t, t ∈ (detailIdx (pathText pre) ups acc).map (·.1) ↔ t ∈ acc.map (·.1) ∨ ∃ q kd, (q, kd) ∈ changesIdx ups ∧ t = pathText (pre ++ q))
  | [], acc, _ => by
    simp only [detailIdx, changesIdx]
    exact ⟨fun t p h => .inl h, fun t => by simp⟩
  | (i, d) :: ups, acc, hp => by
    simp only [changesIdx] at hp ⊢
    have hpu : PlainAll (changesIdx ups) := fun qk h => hp qk (by simp [h])
    have hpd : ∀ qk ∈ changes d, PlainPath (Key.idx (Int.ofNat i) :: qk.1) := fun qk h =>
      hp (Key.idx (Int.ofNat i) :: qk.1, qk.2) (List.mem_append_left _ (List.mem_map.mpr ⟨qk, h, rfl⟩))
    obtain ⟨⟨q₀, k₀⟩, hq₀⟩ : ∃ qk, qk ∈ changes d ∨ changes d = [] := by
      cases hc : changes d with
      | nil => exact ⟨([], .add), .inr rfl⟩
      | cons x xs => exact ⟨x, .inl List.mem_cons_self⟩
    simp only [detailIdx]
    rw [show elemIn (pathText pre) i = pathText (pre ++ [.idx (Int.ofNat i)]) from (pathText_append_idx pre i).symm]
    rcases hq₀ with hq₀ | hnil
    · have hpre' : PlainPath (pre ++ [.idx (Int.ofNat i)]) := by
        intro k hk
        rcases List.mem_append.mp hk with hk | hk
        · exact hpre k hk
        · rw [List.mem_singleton.mp hk]
          exact hpd _ hq₀ _ List.mem_cons_self
      obtain ⟨a1, a2⟩ := detail_texts (pre ++ [.idx (Int.ofNat i)]) hpre' d acc
        (fun qk h k hk => hpd qk h k (List.mem_cons_of_mem _ hk))
      obtain ⟨b1, b2⟩ := detailIdx_texts pre hpre ups (detail (pathText (pre ++ [.idx (Int.ofNat i)])) d acc) hpu
      refine ⟨fun t p h => ?_, fun t => ?_⟩
      · rcases b1 t p h with h | ⟨q, kd, h1, h2, h3⟩
        · rcases a1 t p h with h | ⟨q, kd, h1, h2, h3⟩
          · exact .inl h
          · exact .inr ⟨.idx (Int.ofNat i) :: q, kd, List.mem_append_left _ (List.mem_map.mpr ⟨(q, kd), h1, rfl⟩), by simpa using h2, h3⟩
        · exact .inr ⟨q, kd, List.mem_append_right _ h1, h2, h3⟩
      · rw [b2, a2]
        constructor
        · rintro ((h | ⟨q, kd, h1, h2⟩) | ⟨q, kd, h1, h2⟩)
          · exact .inl h
          · exact .inr ⟨.idx (Int.ofNat i) :: q, kd, List.mem_append_left _ (List.mem_map.mpr ⟨(q, kd), h1, rfl⟩), by simpa using h2⟩
          · exact .inr ⟨q, kd, List.mem_append_right _ h1, h2⟩
        · rintro (h | ⟨q, kd, h1, h2⟩)
          · exact .inl (.inl h)
          · rcases List.mem_append.mp h1 with h1 | h1
            · obtain ⟨⟨q', kd'⟩, hm, he⟩ := List.mem_map.mp h1
              injection he with e1 e2
              exact .inl (.inr ⟨q', kd', hm, by rw [h2, ← e1]; simp⟩)
            · exact .inr ⟨q, kd, h1, h2⟩
    · rw [detail_nil _ d acc hnil, hnil]
      simpa using detailIdx_texts pre hpre ups acc hpu
theorem detailKey_texts (pre : Path) (hpre : PlainPath pre) : ∀ (ups : List (String × VDiff)) (acc : List (Text × PropertyDiff)),
    PlainAll (changesKey ups) →
    (∀ t p, (t, p) ∈ detailKey (pathText pre) ups acc →
      (t, p) ∈ acc ∨ ∃ q kd, (q, kd) ∈ changesKey ups ∧ t = pathText (pre ++ q) ∧ p = { kind := kd, inputDiff := false }) ∧
    (∀ t, t ∈ (detailKey (pathText pre) ups acc).map (·.1) ↔ t ∈ acc.map (·.1) ∨ ∃ q kd, (q, kd) ∈ changesKey ups ∧ t = pathText (pre ++ q))
  | [], acc, _ => by
    simp only [detailKey, changesKey]
    exact ⟨fun t p h => .inl h, fun t => by simp⟩
  | (i, d) :: ups, acc, hp => by
    simp only [changesKey] at hp ⊢
    have hpu : PlainAll (changesKey ups) := fun qk h => hp qk (by simp [h])
    have hpd : ∀ qk ∈ changes d, PlainPath (Key.name i.toList :: qk.1) := fun qk h =>
      hp (Key.name i.toList :: qk.1, qk.2) (List.mem_append_left _ (List.mem_map.mpr ⟨qk, h, rfl⟩))
    obtain ⟨⟨q₀, k₀⟩, hq₀⟩ : ∃ qk, qk ∈ changes d ∨ changes d = [] := by
      cases hc : changes d with
      | nil => exact ⟨([], .add), .inr rfl⟩
      | cons x xs => exact ⟨x, .inl List.mem_cons_self⟩
    simp only [detailKey]
    rcases hq₀ with hq₀ | hnil
    · rw [nameIn_text pre i hpre (plainName_of (hpd _ hq₀ _ List.mem_cons_self))]
      have hpre' : PlainPath (pre ++ [.name i.toList]) := by
        intro k hk
        rcases List.mem_append.mp hk with hk | hk
        · exact hpre k hk
        · rw [List.mem_singleton.mp hk]
          exact hpd _ hq₀ _ List.mem_cons_self
      obtain ⟨a1, a2⟩ := detail_texts (pre ++ [.name i.toList]) hpre' d acc
        (fun qk h k hk => hpd qk h k (List.mem_cons_of_mem _ hk))
      obtain ⟨b1, b2⟩ := detailKey_texts pre hpre ups (detail (pathText (pre ++ [.name i.toList])) d acc) hpu
      refine ⟨fun t p h => ?_, fun t => ?_⟩
      · rcases b1 t p h with h | ⟨q, kd, h1, h2, h3⟩
        · rcases a1 t p h with h | ⟨q, kd, h1, h2, h3⟩
          · exact .inl h
          · exact .inr ⟨.name i.toList :: q, kd, List.mem_append_left _ (List.mem_map.mpr ⟨(q, kd), h1, rfl⟩), by simpa using h2, h3⟩
        · exact .inr ⟨q, kd, List.mem_append_right _ h1, h2, h3⟩
      · rw [b2, a2]
        constructor
        · rintro ((h | ⟨q, kd, h1, h2⟩) | ⟨q, kd, h1, h2⟩)
          · exact .inl h
          · exact .inr ⟨.name i.toList :: q, kd, List.mem_append_left _ (List.mem_map.mpr ⟨(q, kd), h1, rfl⟩), by simpa using h2⟩
          · exact .inr ⟨q, kd, List.mem_append_right _ h1, h2⟩
        · rintro (h | ⟨q, kd, h1, h2⟩)
          · exact .inl (.inl h)
          · rcases List.mem_append.mp h1 with h1 | h1
            · obtain ⟨⟨q', kd'⟩, hm, he⟩ := List.mem_map.mp h1
              injection he with e1 e2
              exact .inl (.inr ⟨q', kd', hm, by rw [h2, ← e1]; simp⟩)
            · exact .inr ⟨q, kd, h1, h2⟩
    · rw [detail_nil _ d acc hnil, hnil]
      simpa using detailKey_texts pre hpre ups acc hpu
end

end Pulumi.Props
