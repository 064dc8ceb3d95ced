import Verif.Wire.Props
import Verif.Wire.RoundTrip
import Verif.Wire.Names
import Verif.Types.Spec

/-! # Lemmas on classes -/

namespace Pulumi.Types

open Pulumi.Wire (setKey setKey_lookup_self setKey_lookup_ne lookup_of_mem lookup_none lookup_mem)

variable {V : Type}

/-! ## Dicts -/

theorem mem_keys_setKey {α : Type} {kvs : List (String × α)} {k n : String} {v : α} :
    n ∈ (setKey kvs k v).map (·.1) ↔ n = k ∨ n ∈ kvs.map (·.1) := by
  induction kvs with
  | nil => simp [setKey]
  | cons p kvs ih =>
    unfold setKey
    by_cases h : p.1 = k
    · rw [if_pos h]
      simp only [List.map_cons, List.mem_cons]
      rw [h]
      constructor
      · rintro (e | e)
        · exact .inl e
        · exact .inr (.inr e)
      · rintro (e | e | e)
        · exact .inl e
        · exact .inl e
        · exact .inr e
    · rw [if_neg h]
      simp only [List.map_cons, List.mem_cons, ih]
      exact or_left_comm

theorem setKey_nodup {α : Type} {kvs : List (String × α)} (h : (kvs.map (·.1)).Nodup) (k : String) (v : α) :
    ((setKey kvs k v).map (·.1)).Nodup := by
  induction kvs with
  | nil => simp [setKey]
  | cons p kvs ih =>
    simp only [List.map_cons, List.nodup_cons] at h
    unfold setKey
    by_cases e : p.1 = k
    · rw [if_pos e]
      simp only [List.map_cons, List.nodup_cons]
      exact ⟨e ▸ h.1, h.2⟩
    · rw [if_neg e]
      simp only [List.map_cons, List.nodup_cons]
      refine ⟨?_, ih h.2⟩
      rw [mem_keys_setKey]
      rintro (e' | h')
      · exact e e'
      · exact h.1 h'

theorem lookup_setKey {α : Type} (kvs : List (String × α)) (k n : String) (v : α) :
    (setKey kvs k v).lookup n = if n = k then some v else kvs.lookup n := by
  by_cases h : n = k
  · subst h
    rw [if_pos rfl, setKey_lookup_self]
  · rw [if_neg h, setKey_lookup_ne kvs v h]

theorem lookup_map_find {α β : Type} (xs : List α) (key : α → String) (g : α → β) (n : String) :
    (xs.map fun x => (key x, g x)).lookup n = (xs.find? fun x => key x == n).map g := by
  induction xs with
  | nil => rfl
  | cons x xs ih =>
    simp only [List.map_cons, List.lookup_cons, List.find?_cons]
    by_cases h : key x = n
    · subst h
      simp
    · have h1 : (n == key x) = false := by simpa using fun e => h e.symm
      have h2 : (key x == n) = false := by simpa using h
      rw [h1, h2]
      exact ih

/-- The entry with a key, in a list with distinct keys. -/
theorem find_of_mem {α : Type} {xs : List α} {key : α → String} (hn : (xs.map key).Nodup) {x : α} (hx : x ∈ xs) :
    xs.find? (fun y => key y == key x) = some x := by
  induction xs with
  | nil => cases hx
  | cons y ys ih =>
    simp only [List.map_cons, List.nodup_cons] at hn
    rw [List.find?_cons]
    by_cases h : key y = key x
    · have : x = y := by
        rcases List.mem_cons.1 hx with e | e
        · exact e
        · exact absurd (List.mem_map.2 ⟨x, e, h.symm⟩) hn.1
      subst this
      simp
    · have h2 : (key y == key x) = false := by simpa using h
      rw [h2]
      rcases List.mem_cons.1 hx with e | e
      · exact absurd (by rw [e]) h
      · exact ih hn.2 e

theorem find_none_of {α : Type} {xs : List α} {key : α → String} {n : String} (h : ∀ x ∈ xs, key x ≠ n) :
    xs.find? (fun y => key y == n) = none := by
  rw [List.find?_eq_none]
  intro x hx
  simpa using h x hx

theorem lookup_filter {α : Type} (kvs : List (String × α)) (p : String × α → Bool) (hn : (kvs.map (·.1)).Nodup) (n : String) :
    (kvs.filter p).lookup n = (kvs.lookup n).filter (fun v => p (n, v)) := by
  induction kvs with
  | nil => rfl
  | cons kv kvs ih =>
    simp only [List.map_cons, List.nodup_cons] at hn
    have ih := ih hn.2
    rw [List.filter_cons]
    by_cases h : n = kv.1
    · subst h
      have hself : (kv :: kvs).lookup kv.1 = some kv.2 := by rw [List.lookup_cons]; simp
      rw [hself]
      by_cases hp : p kv = true
      · rw [if_pos hp]
        have hself : (kv :: kvs.filter p).lookup kv.1 = some kv.2 := by rw [List.lookup_cons]; simp
        rw [hself]
        simp [Option.filter, hp]
      · rw [if_neg hp, ih, lookup_none hn.1]
        simp [Option.filter, hp]
    · have hne : (n == kv.1) = false := by simpa using h
      have e1 : (kv :: kvs).lookup n = kvs.lookup n := by rw [List.lookup_cons, hne]
      rw [e1]
      by_cases hp : p kv = true
      · rw [if_pos hp, List.lookup_cons, hne]
        exact ih
      · rw [if_neg hp]
        exact ih

theorem filter_nodup {α : Type} {kvs : List (String × α)} (p : String × α → Bool) (hn : (kvs.map (·.1)).Nodup) :
    ((kvs.filter p).map (·.1)).Nodup :=
  List.Nodup.sublist (List.Sublist.map _ List.filter_sublist) hn

/-- Assigning a list of entries with distinct keys. -/
theorem lookup_foldl_setKey {α β : Type} (xs : List β) (key : β → String) (g : β → α) (d : List (String × α)) (n : String)
    (hn : (xs.map key).Nodup) :
    (xs.foldl (fun d x => setKey d (key x) (g x)) d).lookup n =
      match xs.find? fun x => key x == n with
      | some x => some (g x)
      | none => d.lookup n := by
  induction xs generalizing d with
  | nil => rfl
  | cons x xs ih =>
    simp only [List.map_cons, List.nodup_cons] at hn
    rw [List.foldl_cons, ih _ hn.2, List.find?_cons]
    by_cases h : key x = n
    · have hnone : xs.find? (fun y => key y == n) = none := find_none_of fun y hy e =>
        hn.1 (List.mem_map.2 ⟨y, hy, e.trans h.symm⟩)
      rw [hnone]
      simp only [h, beq_self_eq_true]
      rw [lookup_setKey, if_pos rfl]
    · have h2 : (key x == n) = false := by simpa using h
      rw [h2]
      simp only
      cases xs.find? (fun y => key y == n) with
      | some y => rfl
      | none =>
        simp only
        rw [lookup_setKey, if_neg (fun e => h e.symm)]

theorem foldl_setKey_nodup {α β : Type} (xs : List β) (key : β → String) (g : β → α) (d : List (String × α))
    (hd : (d.map (·.1)).Nodup) : ((xs.foldl (fun d x => setKey d (key x) (g x)) d).map (·.1)).Nodup := by
  induction xs generalizing d with
  | nil => exact hd
  | cons x xs ih => exact ih _ (setKey_nodup hd _ _)

/-! ## Attributes -/

theorem findAttr_own {c : Class V} {n : String} (h : ∀ b ∈ c.bases, b.attrs.lookup n = none) :
    c.findAttr n = c.own.attrs.lookup n := by
  unfold Class.findAttr Class.mro
  rw [List.findSome?_cons]
  have : c.bases.findSome? (fun d => d.attrs.lookup n) = none := List.findSome?_eq_none_iff.2 h
  rw [this]
  cases c.own.attrs.lookup n <;> rfl

/-- Is this attribute a `_Property`? -/
def Attr.isMark : Attr V → Bool
  | .marker _ _ => true
  | _ => false

/-- The class with other attributes of its own. -/
def Class.withAttrs (c : Class V) (attrs : List (String × Attr V)) : Class V :=
  { c with own := { c.own with attrs := attrs } }

theorem cleanUp_eq (ns : List String) (c : Class V) (hb : ∀ n ∈ ns, ∀ b ∈ c.bases, b.attrs.lookup n = none)
    (hn : (c.own.attrs.map (·.1)).Nodup) :
    cleanUp c ns = .ok (c.withAttrs (c.own.attrs.filter fun a => !(decide (a.1 ∈ ns) && a.2.isMark))) := by
  induction ns generalizing c with
  | nil =>
    have : c.own.attrs.filter (fun a => !(decide (a.1 ∈ ([] : List String)) && a.2.isMark)) = c.own.attrs := by
      rw [List.filter_eq_self]; simp
    rw [this]
    rfl
  | cons n ns ih =>
    unfold cleanUp
    have hf := findAttr_own (hb n (List.mem_cons_self ..))
    have hb' : ∀ m ∈ ns, ∀ b ∈ c.bases, b.attrs.lookup m = none := fun m hm => hb m (List.mem_cons_of_mem _ hm)
    by_cases hm : isMarker c n = true
    · rw [if_pos hm]
      have hsome : (c.own.attrs.lookup n).isSome = true := by
        unfold isMarker at hm
        rw [hf] at hm
        cases h : c.own.attrs.lookup n with
        | none => rw [h] at hm; cases hm
        | some a => rfl
      unfold delAttr
      rw [if_pos hsome]
      show cleanUp (c.withAttrs (c.own.attrs.filter fun a => a.1 != n)) ns = _
      rw [ih (c.withAttrs (c.own.attrs.filter fun a => a.1 != n)) hb' (filter_nodup _ hn)]
      show Except.ok (c.withAttrs ((c.own.attrs.filter fun a => a.1 != n).filter _)) = _
      congr 2
      rw [List.filter_filter]
      apply List.filter_congr
      intro a ha
      by_cases e : a.1 = n
      · have hmark : a.2.isMark = true := by
          unfold isMarker at hm
          rw [hf, ← e, lookup_of_mem hn (k := a.1) (x := a.2) ha] at hm
          cases h2 : a.2 with
          | marker _ _ => rfl
          | prop p => rw [h2] at hm; cases hm
          | value v => rw [h2] at hm; cases hm
        simp [e, hmark]
      · simp [e]
    · rw [if_neg hm, ih c hb' hn]
      congr 2
      apply List.filter_congr
      intro a ha
      by_cases e : a.1 = n
      · have hmark : a.2.isMark = false := by
          unfold isMarker at hm
          rw [hf, ← e, lookup_of_mem hn (k := a.1) (x := a.2) ha] at hm
          cases h2 : a.2 with
          | marker _ _ => rw [h2] at hm; exact absurd rfl hm
          | prop p => rfl
          | value v => rfl
        simp [hmark]
      · simp [e]

/-- Setting several attributes changes only the attributes of the class itself. -/
theorem foldl_setAttr {β : Type} (xs : List β) (key : β → String) (g : β → Attr V) (c : Class V) :
    xs.foldl (fun c x => c.setAttr (key x) (g x)) c =
      c.withAttrs (xs.foldl (fun d x => setKey d (key x) (g x)) c.own.attrs) := by
  induction xs generalizing c with
  | nil => rfl
  | cons x xs ih =>
    rw [List.foldl_cons, ih]
    rfl

theorem mem_dictProperties {d : ClassDict V} (hn : (d.attrs.map (·.1)).Nodup) (x : String × String × PyProp V) :
    x ∈ dictProperties d ↔ d.attrs.lookup x.1 = some (.prop x.2.2) ∧ x.2.2.pulumiName = some x.2.1 := by
  unfold dictProperties
  rw [List.mem_filterMap]
  constructor
  · rintro ⟨a, ha, h⟩
    cases h2 : a.2 with
    | prop p =>
      rw [h2] at h
      simp only [Option.map_eq_some_iff] at h
      obtain ⟨n, hp, rfl⟩ := h
      exact ⟨lookup_of_mem hn (by rw [← h2]; exact ha), hp⟩
    | marker _ _ => rw [h2] at h; cases h
    | value _ => rw [h2] at h; cases h
  · rintro ⟨h1, h2⟩
    refine ⟨(x.1, .prop x.2.2), lookup_mem h1, ?_⟩
    simp [h2]

end Pulumi.Types
