import Verif.Json.Ascii

/-!
# `pulumi.runtime.to_json` (C118)
-/

namespace Pulumi.Json

variable {fl : Floats}

/-- **C118.** An object made of nulls, booleans, numbers, texts, sequences, mappings with text keys and input types, nested in
any way except that no input type or non-dict mapping is inside a tuple, is written as a text that a JSON reader reads as just
what the object stands for. Of an object with something else in it nothing is written: `TypeError`.
Missing: input types and non-dict mappings inside tuples, for which it is false (below). -/
theorem to_json_says_the_object_partial (o : Obj fl) (hfine : o.fine = true) :
    match meaning o with
    | some j => ∃ t, toJson o = .ok t ∧ readJson fl t = some j
    | none => toJson o = .error .typeError := by
  rw [toJson_eq o hfine]
  cases meaning o with
  | none => rfl
  | some j => exact ⟨j.text, rfl, readJson_text j⟩

/-- Objects that stand for different values are never written alike. -/
theorem to_json_injective (o p : Obj fl) (ho : o.fine = true) (hp : p.fine = true) (t : Text)
    (h1 : toJson o = .ok t) (h2 : toJson p = .ok t) : meaning o = meaning p ∧ (meaning o).isSome = true := by
  have h3 := to_json_says_the_object_partial o ho
  have h4 := to_json_says_the_object_partial p hp
  cases hm : meaning o with
  | none =>
    rw [hm] at h3
    simp only at h3
    rw [h1] at h3
    cases h3
  | some j =>
    cases hn : meaning p with
    | none =>
      rw [hn] at h4
      simp only at h4
      rw [h2] at h4
      cases h4
    | some k =>
      rw [hm] at h3
      rw [hn] at h4
      obtain ⟨t1, e1, r1⟩ := h3
      obtain ⟨t2, e2, r2⟩ := h4
      rw [h1] at e1
      rw [h2] at e2
      cases e1
      cases e2
      rw [r1] at r2
      cases r2
      exact ⟨rfl, rfl⟩

/-- The text of a string: quotes, backslashes, control characters and anything beyond ASCII, also beyond the first 65536
characters, come back as they were. -/
theorem json_strings_round_trip (s : Text) :
    ∃ t, toJson (fl := fl) (.str s) = .ok t ∧ readJson fl t = some (.str s) :=
  to_json_says_the_object_partial (.str s) (by rw [Obj.fine] <;> (intros; contradiction))

/-- The text is one line of printable ASCII, whatever is in the object. -/
theorem to_json_is_one_ascii_line (o : Obj fl) (hfine : o.fine = true) (t : Text) (h : toJson o = .ok t) :
    ∀ c ∈ t, 32 ≤ c.toNat ∧ c.toNat ≤ 126 := by
  rw [toJson_eq o hfine] at h
  cases hm : meaning o with
  | none =>
    rw [hm] at h
    cases h
  | some j =>
    rw [hm] at h
    cases h
    exact text_printable j

/-- An input type in a sequence in a dict: its property that is `None` is left out and the other one has its Pulumi name. -/
example :
    let o : Obj wholeFloats := .dict [(.str "items".toList, .seq [.input false [("first_name".toList, "firstName".toList, .str "é".toList),
      ("last_name".toList, "lastName".toList, .none)], .tuple [.int (-12), .float (3 : Nat)]])]
    o.fine = true ∧ meaning o = some (.obj [("items".toList, .arr [.obj [("firstName".toList, .str "é".toList)],
      .arr [.int (-12), .float (3 : Nat)]])]) := by
  constructor
  · simp [Obj.fine, itemsFine, listFine, propsFine, listHasTyped, Obj.hasTyped]
  · simp only [meaning, meaningItems, meaningList, meaningProps]
    rfl

/-- and an object with a set in it has no meaning -/
example : meaning (fl := wholeFloats) (.seq [.int 1, .other]) = none ∧ (Obj.seq [.int 1, .other] : Obj wholeFloats).fine = true := by
  constructor
  · simp only [meaning, meaningList]
    rfl
  · simp [Obj.fine, listFine]

/-! ## What does not hold -/

/-- What would be wanted of every object whose keys are texts, also with input types inside tuples. -/
def ToJsonSaysEveryObject (fl : Floats) : Prop :=
  ∀ (o : Obj fl) (j : J fl), meaning o = some j → ∃ t, toJson o = .ok t ∧ readJson fl t = some j

/-- **Finding.** An input type inside a tuple raises `TypeError`, though the same input type in a list is written. -/
theorem to_json_input_in_tuple (ps : List (Text × Text × Obj fl)) :
    toJson (.tuple [.input false ps]) = .error .typeError := by
  have : serializable (fl := fl) (.tuple [.input false ps]) = .tuple [.input false ps] := by
    rw [serializable] <;> (intros; contradiction)
  unfold toJson
  rw [this, encode, encodeList, encode]
  rfl

/-- **Finding.** If the class is a dict, it is written inside a tuple, but under the Python names, and with the properties that
are `None`. -/
theorem to_json_dict_input_in_tuple (py pu s : Text) :
    ∃ t, toJson (fl := fl) (.tuple [.input true [(py, pu, .str s)]]) = .ok t ∧ readJson fl t = some (.arr [.obj [(py, .str s)]]) := by
  refine ⟨(J.arr (fl := fl) [.obj [(py, .str s)]]).text, ?_, readJson_text _⟩
  have : serializable (fl := fl) (.tuple [.input true [(py, pu, .str s)]]) = .tuple [.input true [(py, pu, .str s)]] := by
    rw [serializable] <;> (intros; contradiction)
  unfold toJson
  rw [this, encode, encodeList, encode, encodeProps, encode, J.text, textList, J.text, textItems, J.text]
  rfl

theorem not_every_object_said (fl : Floats) : ¬ ToJsonSaysEveryObject fl := by
  intro h
  obtain ⟨t, e, _⟩ := h (.tuple [.input false []]) (.arr [.obj []]) (by simp only [meaning, meaningList, meaningProps]; rfl)
  rw [to_json_input_in_tuple] at e
  cases e

/-- **Finding.** Keys that are no texts are written as texts, and may be the same then: `{1: a, "1": b}` is written with two
members of one name. -/
theorem to_json_two_members_of_one_name (a b : Text) :
    ∃ t, toJson (fl := fl) (.dict [(.int 1, .str a), (.str ['1'], .str b)]) = .ok t ∧
      readJson fl t = some (.obj [(['1'], .str a), (['1'], .str b)]) := by
  refine ⟨(J.obj (fl := fl) [(['1'], .str a), (['1'], .str b)]).text, ?_, readJson_text _⟩
  unfold toJson
  have h1 : natText 1 = ['1'] := by
    unfold natText
    rw [revDigits_lt (by decide)]
    rfl
  have h2 : serializable (fl := fl) (.dict [(.int 1, .str a), (.str ['1'], .str b)]) = .dict [(.int 1, .str a), (.str ['1'], .str b)] := by
    simp only [serializable, serializableItems]
  rw [h2, encode, encodeItems]
  · rw [encode, encodeItems, encode, J.text, textItems_cons, textItems, J.text, J.text]
    show Except.ok ('{' :: (strText (natText 1) ++ _ ++ _ ++ _ ++ _) ++ _) = _
    rw [h1]
  · intro e; cases e

end Pulumi.Json
