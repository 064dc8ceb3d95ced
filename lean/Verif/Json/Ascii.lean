import Verif.Json.Meaning

/-! # The written text is printable ASCII; floats for the examples -/

namespace Pulumi.Json

variable {fl : Floats}

/-- Floats with whole values: a model of `Floats` for the examples. -/
def wholeFloats : Floats where
  F := Nat
  repr n := natText n ++ ['.', '0']
  read t := (t.takeWhile isDigit).foldl (fun n c => n * 10 + (c.toNat - 48)) 0
  read_repr n := by
    have h : ∀ (w : Text), (∀ c ∈ w, isDigit c = true) → (w ++ ['.', '0']).takeWhile isDigit = w := by
      intro w hw
      induction w with
      | nil => rfl
      | cons c w ih =>
        have := hw c (List.mem_cons_self ..)
        simp [this, ih fun d hd => hw d (List.mem_cons_of_mem _ hd)]
    rw [h _ (natText_digits n)]
    unfold natText
    rw [List.foldl_reverse]
    exact revDigits_value n
  shape n c hc := by
    rcases List.mem_append.1 hc with h | h
    · have hd := natText_digits n c h
      unfold isDigit at hd
      rw [Bool.and_eq_true, decide_eq_true_eq, decide_eq_true_eq] at hd
      have h1 : 48 ≤ c.toNat := hd.1
      have h2 : c.toNat ≤ 57 := hd.2
      have hall : ∀ m < 10, Char.ofNat (48 + m) ∈ "0123456789+-.e".toList := by decide
      have := hall (c.toNat - 48) (by omega)
      rwa [show 48 + (c.toNat - 48) = c.toNat from by omega, ofNat_toNat] at this
    · have hall : ∀ c ∈ ['.', '0'], c ∈ "0123456789+-.e".toList := by decide
      exact hall c h
  point n := ⟨'.', by simp, .inl rfl⟩

theorem hexDigit_ascii : ∀ n < 16, 32 ≤ (hexDigit n).toNat ∧ (hexDigit n).toNat ≤ 126 := by decide

theorem unicodeEscape_ascii (n : Nat) : ∀ c ∈ unicodeEscape n, 32 ≤ c.toNat ∧ c.toNat ≤ 126 := by
  intro c hc
  unfold unicodeEscape at hc
  simp only [List.mem_cons, List.not_mem_nil, or_false] at hc
  rcases hc with rfl | rfl | rfl | rfl | rfl | rfl
  · decide
  · decide
  all_goals exact hexDigit_ascii _ (Nat.mod_lt _ (by decide))

theorem escapeChar_ascii (x : Char) : ∀ c ∈ escapeChar x, 32 ≤ c.toNat ∧ c.toNat ≤ 126 := by
  unfold escapeChar
  split
  · decide
  split
  · decide
  split
  · decide
  split
  · decide
  split
  · decide
  split
  · decide
  split
  · decide
  split
  · rename_i h
    intro c hc
    rw [List.mem_singleton.1 hc]
    exact h
  split
  · exact unicodeEscape_ascii _
  · intro c hc
    rcases List.mem_append.1 hc with h | h <;> exact unicodeEscape_ascii _ c h

theorem strText_ascii (s : Text) : ∀ c ∈ strText s, 32 ≤ c.toNat ∧ c.toNat ≤ 126 := by
  intro c hc
  unfold strText at hc
  rcases List.mem_append.1 hc with h | h
  · rcases List.mem_cons.1 h with rfl | h
    · decide
    · obtain ⟨x, _, hx⟩ := List.mem_flatMap.1 h
      exact escapeChar_ascii x c hx
  · rw [List.mem_singleton.1 h]
    decide

theorem isNumberChar_ascii {c : Char} (h : isNumberChar c = true) : 32 ≤ c.toNat ∧ c.toNat ≤ 126 := by
  unfold isNumberChar at h
  simp only [Bool.or_eq_true, decide_eq_true_eq] at h
  rcases h with ((((h | rfl) | rfl) | rfl) | rfl) | rfl
  · unfold isDigit at h
    rw [Bool.and_eq_true, decide_eq_true_eq, decide_eq_true_eq] at h
    have h1 : 48 ≤ c.toNat := h.1
    have h2 : c.toNat ≤ 57 := h.2
    omega
  all_goals decide

/-- A character between space and `~`. -/
def printable (t : Text) : Prop := ∀ c ∈ t, 32 ≤ c.toNat ∧ c.toNat ≤ 126

theorem printable_append {s t : Text} (hs : printable s) (ht : printable t) : printable (s ++ t) := by
  intro c hc
  rcases List.mem_append.1 hc with h | h
  · exact hs c h
  · exact ht c h

mutual
theorem text_printable : ∀ j : J fl, printable j.text
  | .null => by rw [J.text]; unfold printable; decide
  | .bool true => by rw [J.text]; unfold printable; decide
  | .bool false => by rw [J.text]; unfold printable; decide
  | .int i => by rw [J.text]; exact fun c hc => isNumberChar_ascii (intText_chars i c hc)
  | .float x => by rw [J.text]; exact fun c hc => isNumberChar_ascii (float_chars x c hc)
  | .str s => by rw [J.text]; exact strText_ascii s
  | .arr js => by
    rw [J.text]
    exact printable_append (printable_append (s := ['[']) (by unfold printable; decide) (textList_printable js)) (by unfold printable; decide)
  | .obj kvs => by
    rw [J.text]
    exact printable_append (printable_append (s := ['{']) (by unfold printable; decide) (textItems_printable kvs)) (by unfold printable; decide)
theorem textList_printable : ∀ js : List (J fl), printable (textList js)
  | [] => by rw [textList]; unfold printable; decide
  | [j] => by rw [textList]; exact text_printable j
  | j :: k :: js => by
    rw [textList_cons]
    exact printable_append (printable_append (text_printable j) (by unfold printable; decide)) (textList_printable (k :: js))
theorem textItems_printable : ∀ kvs : List (Text × J fl), printable (textItems kvs)
  | [] => by rw [textItems]; unfold printable; decide
  | [(k, j)] => by
    rw [textItems]
    exact printable_append (printable_append (strText_ascii k) (by unfold printable; decide)) (text_printable j)
  | (k, j) :: x :: kvs => by
    rw [textItems_cons]
    exact printable_append (printable_append (printable_append (printable_append (strText_ascii k) (by unfold printable; decide))
      (text_printable j)) (by unfold printable; decide)) (textItems_printable (x :: kvs))
end

end Pulumi.Json
