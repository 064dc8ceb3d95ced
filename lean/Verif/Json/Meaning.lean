import Verif.Json.Lemmas

/-! # The text of an object is the text of its meaning -/

namespace Pulumi.Json

variable {fl : Floats}

theorem strText_length (k : Text) : 2 ≤ (strText k).length := by
  unfold strText
  simp

mutual
theorem need_le_text : ∀ j : J fl, j.need ≤ j.text.length
  | .null => by simp only [J.need, J.text]; decide
  | .bool true => by simp only [J.need, J.text]; decide
  | .bool false => by simp only [J.need, J.text]; decide
  | .int i => by
    obtain ⟨c, t, e, _⟩ := text_head (J.int (fl := fl) i)
    rw [e]
    simp [J.need]
  | .float x => by
    obtain ⟨c, t, e, _⟩ := text_head (J.float (fl := fl) x)
    rw [e]
    simp [J.need]
  | .str s => by
    obtain ⟨c, t, e, _⟩ := text_head (J.str (fl := fl) s)
    rw [e]
    simp [J.need]
  | .arr js => by
    have := needList_le_text js
    rw [J.need, J.text]
    simp only [List.length_append, List.length_cons, List.length_nil]
    omega
  | .obj kvs => by
    have := needItems_le_text kvs
    rw [J.need, J.text]
    simp only [List.length_append, List.length_cons, List.length_nil]
    omega
theorem needList_le_text : ∀ js : List (J fl), needList js ≤ (textList js).length + 1
  | [] => by simp [needList]
  | [j] => by
    have := need_le_text j
    rw [needList, needList, textList]
    omega
  | j :: k :: js => by
    have h1 := need_le_text j
    have h2 := needList_le_text (k :: js)
    rw [needList, textList]
    · simp only [List.length_append, List.length_cons, List.length_nil]
      omega
    · intro e; cases e
theorem needItems_le_text : ∀ kvs : List (Text × J fl), needItems kvs ≤ (textItems kvs).length + 1
  | [] => by simp [needItems]
  | [(k, j)] => by
    have := need_le_text j
    rw [needItems, needItems, textItems]
    simp only [List.length_append, List.length_cons, List.length_nil]
    omega
  | (k, j) :: (l, i) :: kvs => by
    have h1 := need_le_text j
    have h2 := needItems_le_text ((l, i) :: kvs)
    rw [needItems, textItems]
    · simp only [List.length_append, List.length_cons, List.length_nil]
      omega
    · intro e; cases e
end

/-- The text of a value is read back as that value. -/
theorem readJson_text (j : J fl) : readJson fl j.text = some j := by
  have := readValue_text j (2 * j.text.length + 2) [] (by have := need_le_text j; omega) (by intro c hc; cases hc)
  rw [List.append_nil] at this
  unfold readJson
  rw [this]
  rfl

/-- What is written for a meaning. -/
def ofMeaning (f : α → Text) : Option α → Except Err Text
  | some j => .ok (f j)
  | none => .error .typeError

theorem meaningList_cons (o : Obj fl) (os : List (Obj fl)) : meaningList (o :: os) =
    (meaning o).bind fun j => (meaningList os).map fun js => j :: js := by
  rw [meaningList]
  cases meaning o <;> cases meaningList os <;> rfl

theorem meaningItems_cons (k : Text) (o : Obj fl) (kvs : List (Key fl × Obj fl)) : meaningItems ((.str k, o) :: kvs) =
    (meaning o).bind fun j => (meaningItems kvs).map fun js => (k, j) :: js := by
  rw [meaningItems]
  cases meaning o <;> cases meaningItems kvs <;> rfl

theorem meaningProps_none (a b : Text) (ps : List (Text × Text × Obj fl)) : meaningProps ((a, b, .none) :: ps) = meaningProps ps := by
  rw [meaningProps]

theorem meaningProps_cons (a b : Text) (o : Obj fl) (ps : List (Text × Text × Obj fl)) (h : o.isNone = false) :
    meaningProps ((a, b, o) :: ps) = (meaning o).bind fun j => (meaningProps ps).map fun js => (b, j) :: js := by
  rw [meaningProps]
  · cases meaning o <;> cases meaningProps ps <;> rfl
  · rintro rfl
    cases h

theorem textList_cons (j k : J fl) (js : List (J fl)) : textList (j :: k :: js) = j.text ++ [',', ' '] ++ textList (k :: js) := by
  rw [textList]
  intro e; cases e

theorem textItems_cons (a : Text) (j : J fl) (x : Text × J fl) (kvs : List (Text × J fl)) :
    textItems ((a, j) :: x :: kvs) = strText a ++ [':', ' '] ++ j.text ++ [',', ' '] ++ textItems (x :: kvs) := by
  rw [textItems]
  intro e; cases e

mutual
/-- Writing an object without input types and other mappings writes its meaning. -/
theorem encode_eq : ∀ o : Obj fl, o.hasTyped = false → o.fine = true → encode o = ofMeaning J.text (meaning o)
  | .none, _, _ => by rw [encode, meaning, ofMeaning, J.text]
  | .bool b, _, _ => by rw [encode, meaning, ofMeaning, J.text]
  | .int n, _, _ => by rw [encode, meaning, ofMeaning, J.text]
  | .float x, _, _ => by rw [encode, meaning, ofMeaning, J.text]
  | .str s, _, _ => by rw [encode, meaning, ofMeaning, J.text]
  | .other, _, _ => by rw [encode, meaning]; rfl
  | .mapping _, h, _ => by rw [Obj.hasTyped] at h; cases h
  | .input _ _, h, _ => by rw [Obj.hasTyped] at h; cases h
  | .seq os, h, hf => by
    rw [Obj.hasTyped] at h
    rw [Obj.fine] at hf
    rw [encode, meaning, encodeList_eq os h hf]
    cases meaningList os with
    | none => rfl
    | some js => show Except.ok _ = Except.ok (J.text (.arr js)); rw [J.text]
  | .tuple os, h, hf => by
    rw [Obj.hasTyped] at h
    rw [Obj.fine, Bool.and_eq_true] at hf
    rw [encode, meaning, encodeList_eq os h hf.1]
    cases meaningList os with
    | none => rfl
    | some js => show Except.ok _ = Except.ok (J.text (.arr js)); rw [J.text]
  | .dict kvs, h, hf => by
    rw [Obj.hasTyped] at h
    rw [Obj.fine] at hf
    rw [encode, meaning, encodeItems_eq kvs h hf]
    cases meaningItems kvs with
    | none => rfl
    | some js => show Except.ok _ = Except.ok (J.text (.obj js)); rw [J.text]
theorem encodeList_eq : ∀ os : List (Obj fl), listHasTyped os = false → listFine os = true →
    encodeList os = ofMeaning textList (meaningList os)
  | [], _, _ => by rw [encodeList, meaningList, ofMeaning, textList]
  | [o], h, hf => by
    rw [listHasTyped, Bool.or_eq_false_iff] at h
    rw [listFine, Bool.and_eq_true] at hf
    rw [encodeList, encode_eq o h.1 hf.1, meaningList_cons, meaningList]
    cases meaning o with
    | none => rfl
    | some j => show Except.ok _ = Except.ok (textList [j]); rw [textList]
  | o :: p :: os, h, hf => by
    rw [listHasTyped, Bool.or_eq_false_iff] at h
    rw [listFine, Bool.and_eq_true] at hf
    rw [encodeList]
    · rw [encode_eq o h.1 hf.1, encodeList_eq (p :: os) h.2 hf.2, meaningList_cons o (p :: os)]
      cases meaning o with
      | none => rfl
      | some j =>
        rw [meaningList_cons]
        cases meaning p with
        | none => rfl
        | some k =>
          cases meaningList os with
          | none => rfl
          | some js => show Except.ok _ = Except.ok (textList (j :: k :: js)); rw [textList_cons]
    · intro e; cases e
theorem encodeItems_eq : ∀ kvs : List (Key fl × Obj fl), itemsHaveTyped kvs = false → itemsFine kvs = true →
    encodeItems kvs = ofMeaning textItems (meaningItems kvs)
  | [], _, _ => by rw [encodeItems, meaningItems, ofMeaning, textItems]
  | [(k, o)], h, hf => by
    rw [itemsHaveTyped, Bool.or_eq_false_iff] at h
    cases k with
    | str k =>
      rw [itemsFine, Bool.and_eq_true] at hf
      rw [encodeItems, encode_eq o h.1 hf.1, meaningItems_cons, meaningItems, keyText]
      cases meaning o with
      | none => rfl
      | some j => show Except.ok _ = Except.ok (textItems [(k, j)]); rw [textItems]
    | _ => simp [itemsFine] at hf
  | (k, o) :: p :: kvs, h, hf => by
    rw [itemsHaveTyped, Bool.or_eq_false_iff] at h
    cases k with
    | str k =>
      rw [itemsFine, Bool.and_eq_true] at hf
      rw [encodeItems]
      · rw [encode_eq o h.1 hf.1, encodeItems_eq (p :: kvs) h.2 hf.2, meaningItems_cons k o (p :: kvs), keyText]
        cases meaning o with
        | none => rfl
        | some j =>
          obtain ⟨l, q⟩ := p
          cases l with
          | str l =>
            rw [meaningItems_cons]
            cases meaning q with
            | none => rfl
            | some i =>
              cases meaningItems kvs with
              | none => rfl
              | some js => show Except.ok _ = Except.ok (textItems ((k, j) :: (l, i) :: js)); rw [textItems_cons]
          | _ => simp [itemsFine] at hf
      · intro e; cases e
    | _ => simp [itemsFine] at hf
end

mutual
/-- The conversion keeps the meaning, and leaves no input types and other mappings. -/
theorem serializable_eq : ∀ o : Obj fl, o.fine = true →
    (serializable o).hasTyped = false ∧ (serializable o).fine = true ∧ meaning (serializable o) = meaning o
  | .none, _ => by simp only [serializable, Obj.hasTyped, Obj.fine, and_self]
  | .bool _, _ => by simp only [serializable, Obj.hasTyped, Obj.fine, and_self]
  | .int _, _ => by simp only [serializable, Obj.hasTyped, Obj.fine, and_self]
  | .float _, _ => by simp only [serializable, Obj.hasTyped, Obj.fine, and_self]
  | .str _, _ => by simp only [serializable, Obj.hasTyped, Obj.fine, and_self]
  | .other, _ => by simp only [serializable, Obj.hasTyped, Obj.fine, and_self]
  | .tuple os, hf => by
    have hs : serializable (.tuple os) = .tuple os := by rw [serializable] <;> (intros; first | contradiction | (intro e; cases e))
    rw [hs]
    refine ⟨?_, hf, rfl⟩
    rw [Obj.fine, Bool.and_eq_true] at hf
    rw [Obj.hasTyped]
    simpa using hf.2
  | .seq os, hf => by
    rw [Obj.fine] at hf
    obtain ⟨h1, h2, h3⟩ := serializableList_eq os hf
    rw [serializable, Obj.hasTyped, Obj.fine, meaning, meaning, h3]
    exact ⟨h1, h2, rfl⟩
  | .dict kvs, hf => by
    rw [Obj.fine] at hf
    obtain ⟨h1, h2, h3⟩ := serializableItems_eq kvs hf
    rw [serializable, Obj.hasTyped, Obj.fine, meaning, meaning, h3]
    exact ⟨h1, h2, rfl⟩
  | .mapping kvs, hf => by
    rw [Obj.fine] at hf
    obtain ⟨h1, h2, h3⟩ := serializableItems_eq kvs hf
    rw [serializable, Obj.hasTyped, Obj.fine, meaning, meaning, h3]
    exact ⟨h1, h2, rfl⟩
  | .input _ ps, hf => by
    rw [Obj.fine] at hf
    obtain ⟨h1, h2, h3⟩ := serializableProps_eq ps hf
    rw [serializable, Obj.hasTyped, Obj.fine, meaning, meaning, h3]
    exact ⟨h1, h2, rfl⟩
theorem serializableList_eq : ∀ os : List (Obj fl), listFine os = true → listHasTyped (serializableList os) = false ∧
    listFine (serializableList os) = true ∧ meaningList (serializableList os) = meaningList os
  | [], _ => by rw [serializableList]; exact ⟨by rw [listHasTyped], by rw [listFine], rfl⟩
  | o :: os, hf => by
    rw [listFine, Bool.and_eq_true] at hf
    obtain ⟨h1, h2, h3⟩ := serializable_eq o hf.1
    obtain ⟨g1, g2, g3⟩ := serializableList_eq os hf.2
    rw [serializableList, listHasTyped, listFine, meaningList_cons, meaningList_cons, h1, h2, h3, g1, g2, g3]
    exact ⟨rfl, rfl, rfl⟩
theorem serializableItems_eq : ∀ kvs : List (Key fl × Obj fl), itemsFine kvs = true →
    itemsHaveTyped (serializableItems kvs) = false ∧ itemsFine (serializableItems kvs) = true ∧
      meaningItems (serializableItems kvs) = meaningItems kvs
  | [], _ => by rw [serializableItems]; exact ⟨by rw [itemsHaveTyped], by rw [itemsFine], rfl⟩
  | (k, o) :: kvs, hf => by
    cases k with
    | str k =>
      rw [itemsFine, Bool.and_eq_true] at hf
      obtain ⟨h1, h2, h3⟩ := serializable_eq o hf.1
      obtain ⟨g1, g2, g3⟩ := serializableItems_eq kvs hf.2
      rw [serializableItems, itemsHaveTyped, itemsFine, meaningItems_cons, meaningItems_cons, h1, h2, h3, g1, g2, g3]
      exact ⟨rfl, rfl, rfl⟩
    | _ => simp [itemsFine] at hf
theorem serializableProps_eq : ∀ ps : List (Text × Text × Obj fl), propsFine ps = true →
    itemsHaveTyped (serializableProps ps) = false ∧ itemsFine (serializableProps ps) = true ∧
      meaningItems (serializableProps ps) = meaningProps ps
  | [], _ => by rw [serializableProps]; exact ⟨by rw [itemsHaveTyped], by rw [itemsFine], by rw [meaningItems, meaningProps]⟩
  | (a, b, o) :: ps, hf => by
    rw [propsFine, Bool.and_eq_true] at hf
    obtain ⟨h1, h2, h3⟩ := serializable_eq o hf.1
    obtain ⟨g1, g2, g3⟩ := serializableProps_eq ps hf.2
    rw [serializableProps]
    by_cases hn : o.isNone = true
    · rw [if_pos hn]
      have : o = .none := by
        cases o <;> first | rfl | cases hn
      subst this
      rw [meaningProps_none]
      exact ⟨g1, g2, g3⟩
    · rw [if_neg hn, itemsHaveTyped, itemsFine, meaningItems_cons, meaningProps_cons _ _ _ _ (by simpa using hn), h1, h2, h3, g1, g2, g3]
      exact ⟨rfl, rfl, rfl⟩
end

theorem toJson_eq (o : Obj fl) (h : o.fine = true) : toJson o = ofMeaning J.text (meaning o) := by
  obtain ⟨h1, h2, h3⟩ := serializable_eq o h
  unfold toJson
  rw [encode_eq _ h1 h2, h3]

end Pulumi.Json
