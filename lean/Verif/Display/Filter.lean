/-!
# Leaving secrets out of texts (C210)

Models `/repo/sdk/go/common/util/logging/log.go:105-154`: `CreateFilter`, which makes a `strings.Replacer` of the secrets of a configuration, and `FilterString`, which every text that is logged or
sent as an event goes through. Texts are lists of characters; the length that counts is that in bytes of UTF-8. The replacer is that of Go's library, by its documentation: from left to right,
without overlaps, at each place the first of the old strings in the order of the arguments.
-/
namespace Pulumi.Display

abbrev Text := List Char

/-- `len` of a Go string -/
def byteLen (s : Text) : Nat := (s.map Char.utf8Size).sum

/-- What secrets are replaced by (`/repo/pkg/engine/events.go:223`) -/
def replacement : Text := ['[', 's', 'e', 'c', 'r', 'e', 't', ']']

/-- The secrets that are replaced (log.go:128-135) -/
def items (secrets : List Text) : List Text := secrets.filter fun s => !(byteLen s < 3)

/-- `Replacer.Replace`: the number is how many characters of an old string that was found are still to be skipped. -/
def replaceFrom (olds : List Text) (new : Text) : Nat → Text → Text
  | _, [] => []
  | k + 1, _ :: s => replaceFrom olds new k s
  | 0, c :: s =>
    match olds.find? (·.isPrefixOf (c :: s)) with
    | some m => new ++ replaceFrom olds new (m.length - 1) s
    | none => c :: replaceFrom olds new 0 s

/-- `CreateFilter` and `Filter` (108-141): without secrets to replace nothing is changed. -/
def filterWith (secrets : List Text) (s : Text) : Text :=
  if (items secrets).length > 0 then replaceFrom (items secrets) replacement 0 s else s

/-- `FilterString` (143-154), with the secrets of all filters that were added (120-124) -/
def filterString (filters : List (List Text)) (s : Text) : Text := filters.foldl (fun s f => filterWith f s) s

/-! ## What is said about it -/

/-- A text with no square brackets in it -/
def NoBrackets (s : Text) : Prop := '[' ∉ s ∧ ']' ∉ s

/-- The letters of the replacement -/
abbrev word : Text := ['s', 'e', 'c', 'r', 'e', 't']

/-- It is the length of the text in UTF-8. -/
theorem byteLen_is_utf8 (s : Text) : byteLen s = (String.ofList s).utf8ByteSize := by
  induction s with
  | nil => rfl
  | cons c s ih =>
    have h : String.ofList (c :: s) = String.singleton c ++ String.ofList s := by
      apply String.toList_inj.mp
      simp
    rw [h, String.utf8ByteSize_append, ← ih]
    simp [byteLen]

theorem mem_items {secrets : List Text} {s : Text} : s ∈ items secrets ↔ s ∈ secrets ∧ 3 ≤ byteLen s := by
  simp [items]

theorem item_ne_nil {secrets : List Text} {s : Text} (h : s ∈ items secrets) : s ≠ [] := by
  rintro rfl
  have := (mem_items.mp h).2
  simp [byteLen] at this

theorem prefix_of_replaced {olds : List Text} {s : Text} (hs : NoBrackets s) (inp : Text) : ∀ k, s <+: replaceFrom olds replacement k inp → s <+: inp.drop k := by
  induction inp generalizing s with
  | nil => intro k h; simpa [replaceFrom] using h
  | cons c inp ih =>
    intro k h
    cases k with
    | succ k => simpa using ih hs k (by simpa [replaceFrom] using h)
    | zero =>
      rw [replaceFrom] at h
      split at h
      · cases s with
        | nil => exact List.nil_prefix
        | cons a s =>
          obtain ⟨t, ht⟩ := h
          have : a = '[' := by
            have := congrArg List.head? ht
            simpa [replacement] using this
          exact absurd (by rw [this]; exact List.mem_cons_self) hs.1
      · cases s with
        | nil => exact List.nil_prefix
        | cons a s =>
          obtain ⟨rfl, h'⟩ := List.cons_prefix_cons.mp h
          have := ih (s := s) ⟨fun hm => hs.1 (List.mem_cons_of_mem _ hm), fun hm => hs.2 (List.mem_cons_of_mem _ hm)⟩ 0 h'
          exact List.cons_prefix_cons.mpr ⟨rfl, by simpa using this⟩

/-- A text without brackets that begins somewhere in a replacement lies within its letters. -/
theorem in_replacement {s t : Text} (hs : NoBrackets s) (h : s <:+: replacement ++ t) : s <:+: word ∨ s <:+: t := by
  have aux : ∀ (w : Text), s <+: w ++ ']' :: t → s <+: w := by
    intro w hw
    by_cases hl : s.length ≤ w.length
    · exact List.prefix_of_prefix_length_le hw (List.prefix_append _ _) hl
    · exfalso
      have h1 : w ++ [']'] <+: w ++ ']' :: t := ⟨t, by simp⟩
      have h2 : w ++ [']'] <+: s := List.prefix_of_prefix_length_le h1 hw (by simp; omega)
      exact hs.2 (h2.subset (by simp))
  obtain ⟨p, q, hpq⟩ := h
  have hdrop : s <+: (replacement ++ t).drop p.length := ⟨q, by rw [← hpq]; simp [List.append_assoc]⟩
  by_cases hp : p.length < 8
  · have h7 : ∀ k, k < 8 → replacement.drop k = '[' :: ['s', 'e', 'c', 'r', 'e', 't', ']'] ∨ ∃ w, replacement.drop k = w ++ [']'] ∧ w <:+: word := by
      intro k hk
      match k, hk with
      | 0, _ => exact .inl rfl
      | 1, _ => exact .inr ⟨['s', 'e', 'c', 'r', 'e', 't'], rfl, List.infix_rfl⟩
      | 2, _ => exact .inr ⟨['e', 'c', 'r', 'e', 't'], rfl, ⟨['s'], [], rfl⟩⟩
      | 3, _ => exact .inr ⟨['c', 'r', 'e', 't'], rfl, ⟨['s', 'e'], [], rfl⟩⟩
      | 4, _ => exact .inr ⟨['r', 'e', 't'], rfl, ⟨['s', 'e', 'c'], [], rfl⟩⟩
      | 5, _ => exact .inr ⟨['e', 't'], rfl, ⟨['s', 'e', 'c', 'r'], [], rfl⟩⟩
      | 6, _ => exact .inr ⟨['t'], rfl, ⟨['s', 'e', 'c', 'r', 'e'], [], rfl⟩⟩
      | 7, _ => exact .inr ⟨[], rfl, ⟨[], ['s', 'e', 'c', 'r', 'e', 't'], rfl⟩⟩
    have hlen : replacement.length = 8 := rfl
    rw [List.drop_append_of_le_length (by omega)] at hdrop
    rcases h7 _ hp with h1 | ⟨w, h1, h2⟩
    · rw [h1] at hdrop
      cases s with
      | nil => exact .inl List.nil_infix
      | cons a s =>
        have := (List.cons_prefix_cons.mp hdrop).1
        exact absurd (by rw [this]; exact List.mem_cons_self) hs.1
    · rw [h1] at hdrop
      have := aux w (by simpa using hdrop)
      exact .inl (this.isInfix.trans h2)
  · have hlen : replacement.length = 8 := rfl
    rw [List.drop_append, List.drop_eq_nil_of_le (by omega), List.nil_append] at hdrop
    exact .inr (hdrop.isInfix.trans (List.drop_suffix _ _).isInfix)

/-- Where a text without brackets is in the result: at a place where nothing was replaced, or within a replacement -/
theorem infix_of_replaced {olds : List Text} {s : Text} (hs : NoBrackets s) (hne : s ≠ []) (inp : Text) : ∀ k, s <:+: replaceFrom olds replacement k inp →
    s <:+: word ∨ ∃ t, t <:+ inp ∧ s <+: t ∧ s <+: replaceFrom olds replacement 0 t := by
  induction inp with
  | nil => intro k h; exact absurd (List.infix_nil.mp (by simpa [replaceFrom] using h)) hne
  | cons c inp ih =>
    intro k h
    have up : (s <:+: word ∨ ∃ t, t <:+ inp ∧ s <+: t ∧ s <+: replaceFrom olds replacement 0 t) → s <:+: word ∨ ∃ t, t <:+ c :: inp ∧ s <+: t ∧ s <+: replaceFrom olds replacement 0 t := by
      rintro (h | ⟨t, h1, h2⟩)
      · exact .inl h
      · exact .inr ⟨t, h1.trans (List.suffix_cons _ _), h2⟩
    cases k with
    | succ k => exact up (ih k (by simpa [replaceFrom] using h))
    | zero =>
      rw [replaceFrom] at h
      split at h
      · rcases in_replacement hs h with h | h
        · exact .inl h
        · exact up (ih _ h)
      · rename_i hn
        rcases List.infix_cons_iff.mp h with h | h
        · have h0 : s <+: replaceFrom olds replacement 0 (c :: inp) := by rw [replaceFrom, hn]; exact h
          exact .inr ⟨c :: inp, List.suffix_rfl, by simpa using prefix_of_replaced hs _ 0 h0, h0⟩
        · exact up (ih 0 h)

theorem item_is_replaced {olds : List Text} {s t : Text} (hm : s ∈ olds) (hs : NoBrackets s) (hne : s ≠ []) (h : s <+: t) : ¬ s <+: replaceFrom olds replacement 0 t := by
  intro h0
  cases t with
  | nil => exact hne (List.prefix_nil.mp h)
  | cons c t =>
    rw [replaceFrom] at h0
    split at h0
    · cases s with
      | nil => exact hne rfl
      | cons a s =>
        obtain ⟨r, hr⟩ := h0
        have : a = '[' := by simpa [replacement] using congrArg List.head? hr
        exact hs.1 (by rw [this]; exact List.mem_cons_self)
    · rename_i hn
      have := List.find?_eq_none.mp hn s hm
      exact this (List.isPrefixOf_iff_prefix.mpr h)

theorem kept_out {secrets : List Text} {s inp : Text} (hm : s ∈ secrets) (h3 : 3 ≤ byteLen s) (hs : NoBrackets s) (hw : ¬ s <:+: word) : ¬ s <:+: filterWith secrets inp := by
  have hi := mem_items.mpr ⟨hm, h3⟩
  have hne := item_ne_nil hi
  unfold filterWith
  rw [if_pos (List.length_pos_of_mem hi)]
  intro h
  rcases infix_of_replaced hs hne inp 0 h with h | ⟨t, -, h1, h2⟩
  · exact hw h
  · exact item_is_replaced hi hs hne h1 h2

theorem not_brought_in {secrets : List Text} {s inp : Text} (hs : NoBrackets s) (hne : s ≠ []) (hw : ¬ s <:+: word) (h : ¬ s <:+: inp) : ¬ s <:+: filterWith secrets inp := by
  unfold filterWith
  split
  · intro h'
    rcases infix_of_replaced hs hne inp 0 h' with h' | ⟨t, h1, h2, -⟩
    · exact hw h'
    · exact h (h2.isInfix.trans h1.isInfix)
  · exact h

/-- **C210** No secret of three bytes or more is in a text that was filtered, whatever filters were added before or after the one that has it, if it has no square brackets and is not a part of the
word that replaces it. -/
theorem no_secret_is_left {filters : List (List Text)} {secrets : List Text} {s inp : Text} (hf : secrets ∈ filters) (hm : s ∈ secrets) (h3 : 3 ≤ byteLen s) (hs : NoBrackets s)
    (hw : ¬ s <:+: word) : ¬ s <:+: filterString filters inp := by
  have hne := item_ne_nil (mem_items.mpr ⟨hm, h3⟩)
  unfold filterString
  have rest : ∀ (l : List (List Text)) (x : Text), ¬ s <:+: x → ¬ s <:+: l.foldl (fun s f => filterWith f s) x := by
    intro l
    induction l with
    | nil => intro x h; exact h
    | cons f l ih => intro x h; exact ih _ (not_brought_in hs hne hw h)
  induction filters generalizing inp with
  | nil => cases hf
  | cons f l ih =>
    rcases List.mem_cons.mp hf with rfl | hf
    · exact rest l _ (kept_out hm h3 hs hw)
    · exact ih hf

/-- **C210** A text with none of the secrets in it is left as it is. -/
theorem others_are_unchanged {filters : List (List Text)} {inp : Text} (h : ∀ f ∈ filters, ∀ s ∈ f, 3 ≤ byteLen s → ¬ s <:+: inp) : filterString filters inp = inp := by
  have one : ∀ (secrets : List Text) (x : Text), (∀ s ∈ secrets, 3 ≤ byteLen s → ¬ s <:+: x) → filterWith secrets x = x := by
    intro secrets x hx
    unfold filterWith
    split
    · rename_i hl
      clear hl
      induction x with
      | nil => rfl
      | cons c x ih =>
        rw [replaceFrom]
        split
        · rename_i m hm
          have h1 := List.mem_of_find?_eq_some hm
          have h2 := List.find?_some hm
          obtain ⟨h3, h4⟩ := mem_items.mp h1
          exact absurd (List.isPrefixOf_iff_prefix.mp h2).isInfix (hx m h3 h4)
        · rw [ih fun s hs h3 hi => hx s hs h3 (hi.trans (List.suffix_cons _ _).isInfix)]
    · rfl
  unfold filterString
  induction filters with
  | nil => rfl
  | cons f l ih =>
    rw [List.foldl_cons, one f inp (h f List.mem_cons_self)]
    exact ih fun f hf => h f (List.mem_cons_of_mem _ hf)

/-- A piece of a text: a character that is kept or a secret that is replaced -/
inductive Piece where
  | kept (c : Char)
  | secret (s : Text)

def Piece.before : Piece → Text
  | .kept c => [c]
  | .secret s => s

def Piece.after : Piece → Text
  | .kept c => [c]
  | .secret _ => ['[', 's', 'e', 'c', 'r', 'e', 't', ']']

/-- **C210** Nothing but secrets is taken out: the result is the text with some of the secrets in it, which do not overlap, replaced. -/
theorem only_secrets_are_replaced (secrets : List Text) (inp : Text) : ∃ l : List Piece, l.flatMap Piece.before = inp ∧ l.flatMap Piece.after = filterWith secrets inp ∧
    ∀ s, Piece.secret s ∈ l → s ∈ secrets ∧ 3 ≤ byteLen s := by
  have kept : ∀ inp : Text, ∃ l : List Piece, l.flatMap Piece.before = inp ∧ l.flatMap Piece.after = inp ∧ ∀ s, Piece.secret s ∈ l → s ∈ secrets ∧ 3 ≤ byteLen s := by
    intro inp
    refine ⟨inp.map .kept, ?_, ?_, fun s hs => by simp at hs⟩
    · induction inp with
      | nil => rfl
      | cons c inp ih => simp [Piece.before, ih]
    · induction inp with
      | nil => rfl
      | cons c inp ih => simp [Piece.after, ih]
  unfold filterWith
  split
  · have go : ∀ (inp : Text) (k : Nat), ∃ l : List Piece, l.flatMap Piece.before = inp.drop k ∧ l.flatMap Piece.after = replaceFrom (items secrets) replacement k inp ∧
        ∀ s, Piece.secret s ∈ l → s ∈ secrets ∧ 3 ≤ byteLen s := by
      intro inp
      induction inp with
      | nil => intro k; exact ⟨[], by simp, by simp [replaceFrom], fun s hs => by cases hs⟩
      | cons c inp ih =>
        intro k
        cases k with
        | succ k => simpa [replaceFrom] using ih k
        | zero =>
          rw [replaceFrom]
          split
          · rename_i m hm
            have h1 := List.mem_of_find?_eq_some hm
            have h2' := List.find?_some hm
            have h2 := List.isPrefixOf_iff_prefix.mp h2'
            obtain ⟨l, h3, h4, h5⟩ := ih (m.length - 1)
            refine ⟨.secret m :: l, ?_, ?_, ?_⟩
            · obtain ⟨r, hr⟩ := h2
              cases m with
              | nil => exact absurd rfl (item_ne_nil h1)
              | cons a m =>
                injection hr with ha hr
                subst ha hr
                simp only [List.flatMap_cons, h3, Piece.before]
                simp
            · simp [h4, Piece.after, replacement]
            · intro s hs
              rcases List.mem_cons.mp hs with hs | hs
              · cases hs; exact mem_items.mp h1
              · exact h5 s hs
          · obtain ⟨l, h3, h4, h5⟩ := ih 0
            refine ⟨.kept c :: l, by simpa [Piece.before] using h3, by simp [h4, Piece.after], fun s hs => ?_⟩
            rcases List.mem_cons.mp hs with hs | hs
            · cases hs
            · exact h5 s hs
    simpa using go inp 0
  · exact kept inp

/-! ### What does not hold -/

/-- **C210** A secret of one or two bytes is shown: this is meant. -/
theorem short_secrets_are_shown : filterString [["ab".toList]] "pin ab".toList = "pin ab".toList := by decide +kernel

/-- **C210** When one secret begins like another, it depends on their order, which is that of a Go map, whether the rest of the longer one is shown. -/
theorem longer_secret_shown_in_part :
    filterString [["abc".toList, "abcdef".toList]] "key=abcdef".toList = "key=[secret]def".toList ∧
    filterString [["abcdef".toList, "abc".toList]] "key=abcdef".toList = "key=[secret]".toList := by constructor <;> decide +kernel

/-- **C210** When two secrets overlap in a text, the end of the second is shown. -/
theorem overlapping_secret_shown_in_part : filterString [["abcd".toList, "cdef".toList]] "abcdef".toList = "[secret]ef".toList := by decide +kernel

/-- **C210** The brackets matter: a replacement can make a text that is a secret. -/
theorem brackets_matter : filterString [["abc".toList, "x[s".toList]] "xabc".toList = "x[secret]".toList ∧ "x[s".toList <:+: "x[secret]".toList :=
  ⟨by decide +kernel, ⟨[], "ecret]".toList, by decide +kernel⟩⟩

/-- Two filters; the second has a secret that the first does not have. -/
example : filterString [["hunter2".toList], ["pa55".toList, "xy".toList]] "hunter2hunter2 pa55 xy".toList = "[secret][secret] [secret] xy".toList := by decide +kernel

example : NoBrackets "hunter2".toList ∧ ¬ "hunter2".toList <:+: word ∧ 3 ≤ byteLen "hunter2".toList := by
  refine ⟨by constructor <;> decide +kernel, fun h => ?_, by decide +kernel⟩
  have := h.length_le
  simp at this

end Pulumi.Display
