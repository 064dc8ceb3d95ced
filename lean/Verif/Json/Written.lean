import Verif.Json.Theorems

/-!
# What `to_json` writes, for every object (C118)

`Theorems.lean` has the objects that are written as what they stand for. This file says what is written for all others.
-/

namespace Pulumi.Json

variable {fl : Floats}

/-- The name that a key of a dict gets: numbers, booleans and `None` get names too. -/
def nameOf : Key fl → Option Text
  | .str s => some s
  | .int n => some (intText n)
  | .bool true => some "true".toList
  | .bool false => some "false".toList
  | .none => some "null".toList
  | .float x => some (fl.repr x)
  | .other => none

mutual
/-- What `json.dumps` alone makes of an object: sequences and tuples are arrays, dicts are objects. An input type that is a dict
has all its properties, under their Python names. There is nothing for mappings that are no dicts and other input types. -/
def raw : Obj fl → Option (J fl)
  | .none => some .null
  | .bool b => some (.bool b)
  | .int n => some (.int n)
  | .float x => some (.float x)
  | .str s => some (.str s)
  | .seq os => (rawList os).map .arr
  | .tuple os => (rawList os).map .arr
  | .dict kvs => (rawItems kvs).map .obj
  | .mapping _ => none
  | .input true ps => (rawProps ps).map .obj
  | .input false _ => none
  | .other => none
def rawList : List (Obj fl) → Option (List (J fl))
  | [] => some []
  | o :: os => (raw o).bind fun j => (rawList os).map fun js => j :: js
def rawItems : List (Key fl × Obj fl) → Option (List (Text × J fl))
  | [] => some []
  | (k, o) :: kvs => (nameOf k).bind fun n => (raw o).bind fun j => (rawItems kvs).map fun js => (n, j) :: js
def rawProps : List (Text × Text × Obj fl) → Option (List (Text × J fl))
  | [] => some []
  | (a, _, o) :: ps => (raw o).bind fun j => (rawProps ps).map fun js => (a, j) :: js
end

mutual
/-- What `to_json` makes of an object: outside tuples an input type is the object of its properties that are not `None`, under
their Pulumi names, and every mapping is an object. Inside a tuple everything is left to `json.dumps`. -/
def written : Obj fl → Option (J fl)
  | .seq os => (writtenList os).map .arr
  | .dict kvs => (writtenItems kvs).map .obj
  | .mapping kvs => (writtenItems kvs).map .obj
  | .input _ ps => (writtenProps ps).map .obj
  | .none => some .null
  | .bool b => some (.bool b)
  | .int n => some (.int n)
  | .float x => some (.float x)
  | .str s => some (.str s)
  | .tuple os => (rawList os).map .arr
  | .other => none
def writtenList : List (Obj fl) → Option (List (J fl))
  | [] => some []
  | o :: os => (written o).bind fun j => (writtenList os).map fun js => j :: js
def writtenItems : List (Key fl × Obj fl) → Option (List (Text × J fl))
  | [] => some []
  | (k, o) :: kvs => (nameOf k).bind fun n => (written o).bind fun j => (writtenItems kvs).map fun js => (n, j) :: js
def writtenProps : List (Text × Text × Obj fl) → Option (List (Text × J fl))
  | [] => some []
  | (_, b, o) :: ps =>
    if o.isNone then writtenProps ps else (written o).bind fun j => (writtenProps ps).map fun js => (b, j) :: js
end

theorem keyText_eq (k : Key fl) : keyText k = ofMeaning id (nameOf k) := by
  cases k with
  | bool b => cases b <;> rfl
  | _ => rfl

theorem rawList_cons (o : Obj fl) (os : List (Obj fl)) :
    rawList (o :: os) = (raw o).bind fun j => (rawList os).map fun js => j :: js := by rw [rawList]
theorem rawItems_cons (k : Key fl) (o : Obj fl) (kvs : List (Key fl × Obj fl)) : rawItems ((k, o) :: kvs) =
    (nameOf k).bind fun n => (raw o).bind fun j => (rawItems kvs).map fun js => (n, j) :: js := by rw [rawItems]
theorem rawProps_cons (a b : Text) (o : Obj fl) (ps : List (Text × Text × Obj fl)) :
    rawProps ((a, b, o) :: ps) = (raw o).bind fun j => (rawProps ps).map fun js => (a, j) :: js := by rw [rawProps]

mutual
/-- `json.dumps` of any object. -/
theorem encode_raw : ∀ o : Obj fl, encode o = ofMeaning J.text (raw o)
  | .none => by rw [encode, raw, ofMeaning, J.text]
  | .bool b => by rw [encode, raw, ofMeaning, J.text]
  | .int n => by rw [encode, raw, ofMeaning, J.text]
  | .float x => by rw [encode, raw, ofMeaning, J.text]
  | .str s => by rw [encode, raw, ofMeaning, J.text]
  | .other => by rw [encode, raw]; rfl
  | .mapping _ => by rw [encode, raw]; rfl
  | .input false _ => by rw [encode, raw]; rfl
  | .input true ps => by
    rw [encode, raw, encodeProps_raw ps]
    cases rawProps ps with
    | none => rfl
    | some js => show Except.ok _ = Except.ok (J.text (.obj js)); rw [J.text]
  | .seq os => by
    rw [encode, raw, encodeList_raw os]
    cases rawList os with
    | none => rfl
    | some js => show Except.ok _ = Except.ok (J.text (.arr js)); rw [J.text]
  | .tuple os => by
    rw [encode, raw, encodeList_raw os]
    cases rawList os with
    | none => rfl
    | some js => show Except.ok _ = Except.ok (J.text (.arr js)); rw [J.text]
  | .dict kvs => by
    rw [encode, raw, encodeItems_raw kvs]
    cases rawItems kvs with
    | none => rfl
    | some js => show Except.ok _ = Except.ok (J.text (.obj js)); rw [J.text]
theorem encodeList_raw : ∀ os : List (Obj fl), encodeList os = ofMeaning textList (rawList os)
  | [] => by rw [encodeList, rawList, ofMeaning, textList]
  | [o] => by
    rw [encodeList, encode_raw o, rawList, rawList]
    cases raw o with
    | none => rfl
    | some j => show Except.ok _ = Except.ok (textList [j]); rw [textList]
  | o :: p :: os => by
    rw [encodeList]
    · rw [encode_raw o, encodeList_raw (p :: os), rawList_cons o (p :: os)]
      cases raw o with
      | none => rfl
      | some j =>
        rw [rawList_cons]
        cases raw p with
        | none => rfl
        | some k =>
          cases rawList os with
          | none => rfl
          | some js => show Except.ok _ = Except.ok (textList (j :: k :: js)); rw [textList_cons]
    · intro e; cases e
theorem encodeItems_raw : ∀ kvs : List (Key fl × Obj fl), encodeItems kvs = ofMeaning textItems (rawItems kvs)
  | [] => by rw [encodeItems, rawItems, ofMeaning, textItems]
  | [(k, o)] => by
    rw [encodeItems, encode_raw o, rawItems, rawItems, keyText_eq]
    cases nameOf k with
    | none => rfl
    | some n =>
      cases raw o with
      | none => rfl
      | some j => show Except.ok _ = Except.ok (textItems [(n, j)]); rw [textItems]; rfl
  | (k, o) :: (l, p) :: kvs => by
    rw [encodeItems]
    · rw [encode_raw o, encodeItems_raw ((l, p) :: kvs), rawItems_cons k o ((l, p) :: kvs), keyText_eq]
      cases nameOf k with
      | none => rfl
      | some n =>
        cases raw o with
        | none => rfl
        | some j =>
          rw [rawItems_cons]
          cases nameOf l with
          | none => rfl
          | some m =>
            cases raw p with
            | none => rfl
            | some i =>
              cases rawItems kvs with
              | none => rfl
              | some js => show Except.ok _ = Except.ok (textItems ((n, j) :: (m, i) :: js)); rw [textItems_cons]; rfl
    · intro e; cases e
theorem encodeProps_raw : ∀ ps : List (Text × Text × Obj fl), encodeProps ps = ofMeaning textItems (rawProps ps)
  | [] => by rw [encodeProps, rawProps, ofMeaning, textItems]
  | [(a, b, o)] => by
    rw [encodeProps, encode_raw o, rawProps, rawProps]
    cases raw o with
    | none => rfl
    | some j => show Except.ok _ = Except.ok (textItems [(a, j)]); rw [textItems]
  | (a, b, o) :: (c, d, p) :: ps => by
    rw [encodeProps]
    · rw [encode_raw o, encodeProps_raw ((c, d, p) :: ps), rawProps_cons a b o ((c, d, p) :: ps)]
      cases raw o with
      | none => rfl
      | some j =>
        rw [rawProps_cons]
        cases raw p with
        | none => rfl
        | some i =>
          cases rawProps ps with
          | none => rfl
          | some js => show Except.ok _ = Except.ok (textItems ((a, j) :: (c, i) :: js)); rw [textItems_cons]
    · intro e; cases e
end

mutual
theorem raw_serializable : ∀ o : Obj fl, raw (serializable o) = written o
  | .none => by simp only [serializable, raw, written]
  | .bool _ => by simp only [serializable, raw, written]
  | .int _ => by simp only [serializable, raw, written]
  | .float _ => by simp only [serializable, raw, written]
  | .str _ => by simp only [serializable, raw, written]
  | .other => by simp only [serializable, raw, written]
  | .tuple os => by
    have hs : serializable (.tuple os) = .tuple os := by rw [serializable] <;> (intros; first | contradiction | (intro e; cases e))
    rw [hs, raw, written]
  | .seq os => by rw [serializable, raw, written, raw_serializableList os]
  | .dict kvs => by rw [serializable, raw, written, raw_serializableItems kvs]
  | .mapping kvs => by rw [serializable, raw, written, raw_serializableItems kvs]
  | .input _ ps => by rw [serializable, raw, written, raw_serializableProps ps]
theorem raw_serializableList : ∀ os : List (Obj fl), rawList (serializableList os) = writtenList os
  | [] => by rw [serializableList, rawList, writtenList]
  | o :: os => by rw [serializableList, rawList, writtenList, raw_serializable o, raw_serializableList os]
theorem raw_serializableItems : ∀ kvs : List (Key fl × Obj fl), rawItems (serializableItems kvs) = writtenItems kvs
  | [] => by rw [serializableItems, rawItems, writtenItems]
  | (k, o) :: kvs => by rw [serializableItems, rawItems, writtenItems, raw_serializable o, raw_serializableItems kvs]
theorem raw_serializableProps : ∀ ps : List (Text × Text × Obj fl), rawItems (serializableProps ps) = writtenProps ps
  | [] => by rw [serializableProps, rawItems, writtenProps]
  | (a, b, o) :: ps => by
    rw [serializableProps, writtenProps]
    by_cases hn : o.isNone = true
    · rw [if_pos hn, if_pos hn, raw_serializableProps ps]
    · rw [if_neg hn, if_neg hn, rawItems, raw_serializable o, raw_serializableProps ps]
      rfl
end

/-- **C118.** Every object, with keys of any kind and input types anywhere: what is written reads as what `written` says, and
where that is nothing, nothing is written. -/
theorem to_json_writes (o : Obj fl) :
    match written o with
    | some j => ∃ t, toJson o = .ok t ∧ readJson fl t = some j
    | none => toJson o = .error .typeError := by
  have h : toJson o = ofMeaning J.text (written o) := by rw [toJson, encode_raw, raw_serializable]
  rw [h]
  cases written o with
  | none => rfl
  | some j => exact ⟨j.text, rfl, readJson_text j⟩

/-- A tuple with an input type that is a dict: the Python names and the `None` are there. A dict with a number as a key. -/
example : written (fl := wholeFloats) (.dict [(.int (-3), .tuple [.input true [("a_b".toList, "aB".toList, .none), ("c".toList, "c".toList, .bool true)]])]) =
    some (.obj [(intText (-3), .arr [.obj [("a_b".toList, .null), ("c".toList, .bool true)]])]) := by
  simp only [written, writtenItems, rawList, raw, rawProps, nameOf]
  rfl

/-- **Finding.** An input type that is a dict, inside a tuple: all its properties under the Python names. -/
theorem to_json_dict_inputs_in_tuple (ps : List (Text × Text × Text)) :
    ∃ t, toJson (fl := fl) (.tuple [.input true (ps.map fun p => (p.1, p.2.1, .str p.2.2))]) = .ok t ∧
      readJson fl t = some (.arr [.obj (ps.map fun p => (p.1, .str p.2.2))]) := by
  have h : rawProps (fl := fl) (ps.map fun p => (p.1, p.2.1, .str p.2.2)) = some (ps.map fun p => (p.1, .str p.2.2)) := by
    induction ps with
    | nil => simp only [List.map_nil, rawProps]
    | cons p ps ih =>
      simp only [List.map_cons, rawProps, ih, raw]
      rfl
  have := to_json_writes (fl := fl) (.tuple [.input true (ps.map fun p => (p.1, p.2.1, .str p.2.2))])
  rw [written, rawList, raw, h, rawList] at this
  exact this

end Pulumi.Json
