import Verif.Json.Spec

/-! # Facts about writing and reading JSON -/

namespace Pulumi.Json

variable {fl : Floats}

/-! ## Numbers -/

theorem digit_char : ∀ n < 10, isDigit (Char.ofNat (48 + n)) = true ∧ (Char.ofNat (48 + n)).toNat - 48 = n := by decide

theorem revDigits_lt {n : Nat} (h : n < 10) : revDigits n = [Char.ofNat (48 + n)] := by
  rw [revDigits, if_pos h]

theorem revDigits_ge {n : Nat} (h : ¬ n < 10) : revDigits n = Char.ofNat (48 + n % 10) :: revDigits (n / 10) := by
  rw [revDigits, if_neg h]

theorem revDigits_digits (n : Nat) : ∀ c ∈ revDigits n, isDigit c = true := by
  induction n using Nat.strongRecOn with
  | _ n ih =>
    by_cases h : n < 10
    · rw [revDigits_lt h]
      intro c hc
      rw [List.mem_singleton] at hc
      subst hc
      exact (digit_char n h).1
    · rw [revDigits_ge h]
      intro c hc
      rcases List.mem_cons.1 hc with rfl | hc
      · exact (digit_char _ (Nat.mod_lt _ (by decide))).1
      · exact ih (n / 10) (by omega) c hc

theorem revDigits_value (n : Nat) : (revDigits n).foldr (fun c m => m * 10 + (c.toNat - 48)) 0 = n := by
  induction n using Nat.strongRecOn with
  | _ n ih =>
    by_cases h : n < 10
    · rw [revDigits_lt h]
      simp only [List.foldr_cons, List.foldr_nil]
      rw [(digit_char n h).2]
      omega
    · rw [revDigits_ge h, List.foldr_cons, ih (n / 10) (by omega), (digit_char _ (Nat.mod_lt _ (by decide))).2]
      omega

theorem revDigits_ne (n : Nat) : revDigits n ≠ [] := by
  by_cases h : n < 10
  · rw [revDigits_lt h]; simp
  · rw [revDigits_ge h]; simp

theorem digit_nonzero : ∀ n < 10, n ≠ 0 → Char.ofNat (48 + n) ≠ '0' := by decide

theorem revDigits_last (n : Nat) (hn : n ≠ 0) : (revDigits n).getLast? ≠ some '0' := by
  induction n using Nat.strongRecOn with
  | _ n ih =>
    by_cases h : n < 10
    · rw [revDigits_lt h]
      simp only [List.getLast?_singleton]
      intro e
      exact digit_nonzero n h hn (Option.some.inj e)
    · rw [revDigits_ge h]
      have := ih (n / 10) (by omega) (by omega)
      rw [List.getLast?_cons]
      cases hl : (revDigits (n / 10)).getLast? with
      | none => exact absurd (List.getLast?_eq_none_iff.1 hl) (revDigits_ne _)
      | some c =>
        rw [hl] at this
        simpa using this

theorem natText_digits (n : Nat) : ∀ c ∈ natText n, isDigit c = true := by
  intro c hc
  exact revDigits_digits n c (List.mem_reverse.1 hc)

theorem natText_ne (n : Nat) : natText n ≠ [] := by
  unfold natText
  simp [revDigits_ne]

theorem readNat_natText (n : Nat) : readNat (natText n) = some n := by
  unfold readNat
  split
  · rename_i h
    exact absurd h (natText_ne n)
  · have hall : (natText n).all isDigit = true := List.all_eq_true.2 (natText_digits n)
    rw [if_pos hall]
    congr 1
    unfold natText
    rw [List.foldl_reverse]
    exact revDigits_value n

theorem natText_head (n : Nat) : ¬ ((natText n).head? = some '0' ∧ natText n ≠ ['0']) := by
  rintro ⟨h1, h2⟩
  by_cases hn : n = 0
  · subst hn
    apply h2
    unfold natText
    rw [revDigits_lt (by decide)]
    rfl
  · unfold natText at h1
    rw [List.head?_reverse] at h1
    exact revDigits_last n hn h1

theorem isDigit_not {c : Char} (h : isDigit c = true) (d : Char) (hd : isDigit d = false) : c ≠ d := by
  rintro rfl
  rw [h] at hd
  cases hd

theorem digits_no_point {t : Text} (h : ∀ c ∈ t, isDigit c = true) :
    t.any (fun c => c = '.' || c = 'e' || c = 'E') = false := by
  rw [List.any_eq_false]
  intro c hc
  have h1 := isDigit_not (h c hc) '.' (by decide)
  have h2 := isDigit_not (h c hc) 'e' (by decide)
  have h3 := isDigit_not (h c hc) 'E' (by decide)
  simp [h1, h2, h3]

theorem readNumber_int (n : Int) : readNumber (fl := fl) (intText n) = some (.int n) := by
  cases n with
  | ofNat n =>
    show readNumber (natText n) = _
    unfold readNumber
    rw [digits_no_point (natText_digits n), if_neg (by decide)]
    split
    · rename_i d hd
      have := natText_digits n '-' (by rw [hd]; exact List.mem_cons_self ..)
      exact absurd this (by decide)
    · rw [if_neg (natText_head n), readNat_natText]
      rfl
  | negSucc n =>
    show readNumber ('-' :: natText (n + 1)) = _
    unfold readNumber
    have : ('-' :: natText (n + 1)).any (fun c => c = '.' || c = 'e' || c = 'E') = false := by
      rw [List.any_cons, digits_no_point (natText_digits _)]
      rfl
    rw [this, if_neg (by decide)]
    simp only
    rw [if_neg (natText_head _), readNat_natText]
    rfl

theorem isNumberChar_digit {c : Char} (h : isDigit c = true) : isNumberChar c = true := by
  unfold isNumberChar
  rw [h]
  rfl

theorem intText_chars (n : Int) : ∀ c ∈ intText n, isNumberChar c = true := by
  cases n with
  | ofNat n => exact fun c hc => isNumberChar_digit (natText_digits n c hc)
  | negSucc n =>
    intro c hc
    rcases List.mem_cons.1 hc with rfl | hc
    · rfl
    · exact isNumberChar_digit (natText_digits _ c hc)

theorem float_chars (x : fl.F) : ∀ c ∈ fl.repr x, isNumberChar c = true := by
  intro c hc
  have := fl.shape x c hc
  have hall : ∀ c ∈ "0123456789+-.e".toList, isNumberChar c = true := by decide
  exact hall c this

theorem readNumber_float (x : fl.F) : readNumber (fl := fl) (fl.repr x) = some (.float x) := by
  unfold readNumber
  have : (fl.repr x).any (fun c => c = '.' || c = 'e' || c = 'E') = true := by
    obtain ⟨c, hc, h⟩ := fl.point x
    rw [List.any_eq_true]
    refine ⟨c, hc, ?_⟩
    rcases h with rfl | rfl <;> rfl
  rw [if_pos this, fl.read_repr]

/-! ## Words -/

/-- A text that a word cannot run on into. -/
def Ends (r : Text) : Prop := ∀ c ∈ r.head?, isWordChar c = false

theorem takeWhile_word {w r : Text} (hw : ∀ c ∈ w, isWordChar c = true) (hr : Ends r) :
    (w ++ r).takeWhile isWordChar = w ∧ (w ++ r).dropWhile isWordChar = r := by
  induction w with
  | nil =>
    cases r with
    | nil => exact ⟨rfl, rfl⟩
    | cons c r =>
      have := hr c rfl
      simp [this]
  | cons c w ih =>
    obtain ⟨h1, h2⟩ := ih fun d hd => hw d (List.mem_cons_of_mem _ hd)
    have := hw c (List.mem_cons_self ..)
    simp [this, h1, h2]

theorem readWord_eq (w r : Text) (hw : ∀ c ∈ w, isWordChar c = true) (hr : Ends r) : readWord (fl := fl) (w ++ r) =
    if w = "null".toList then some (.null, r)
    else if w = "true".toList then some (.bool true, r)
    else if w = "false".toList then some (.bool false, r)
    else (readNumber w).map fun j => (j, r) := by
  obtain ⟨h1, h2⟩ := takeWhile_word hw hr
  unfold readWord
  simp only [h1, h2]

theorem readWord_number {w r : Text} {j : J fl} (hw : ∀ c ∈ w, isNumberChar c = true) (hr : Ends r) (hj : readNumber w = some j) :
    readWord (fl := fl) (w ++ r) = some (j, r) := by
  have hno : ∀ (v : Text) (c : Char), c ∈ v → isNumberChar c = false → w ≠ v := by
    intro v c hc hn e
    subst e
    rw [hw c hc] at hn
    cases hn
  rw [readWord_eq w r (fun c hc => by unfold isWordChar; rw [hw c hc]; rfl) hr,
    if_neg (hno _ 'n' (by decide) (by decide)), if_neg (hno _ 't' (by decide) (by decide)),
    if_neg (hno _ 'f' (by decide) (by decide)), hj]
  rfl

/-! ## Strings -/

theorem hex_char : ∀ n < 16, hexValue (hexDigit n) = some n := by decide

theorem readUnits_nil (s : Text) : readUnits ('"' :: s) = some ([], s) := by
  rw [readUnits.eq_def]
  rfl

theorem readUnits_unicode (n : Nat) (h : n < 65536) (s : Text) :
    readUnits (unicodeEscape n ++ s) = (readUnits s).map fun x => (n :: x.1, x.2) := by
  unfold unicodeEscape
  simp only [List.cons_append, List.nil_append]
  rw [readUnits.eq_def]
  simp only
  rw [if_neg (by decide), if_pos trivial, if_pos trivial]
  rw [hex_char _ (Nat.mod_lt _ (by decide)), hex_char _ (Nat.mod_lt _ (by decide)), hex_char _ (Nat.mod_lt _ (by decide)),
    hex_char _ (Nat.mod_lt _ (by decide))]
  simp only
  have : ((n / 4096 % 16 * 16 + n / 256 % 16) * 16 + n / 16 % 16) * 16 + n % 16 = n := by omega
  rw [this]

theorem readUnits_simple (e x : Char) (he : e ≠ 'u') (hx : simpleEscape e = some x) (s : Text) :
    readUnits ('\\' :: e :: s) = (readUnits s).map fun y => (x.toNat :: y.1, y.2) := by
  rw [readUnits.eq_def]
  simp only
  rw [if_neg (by decide), if_pos trivial, if_neg he, hx]

theorem char_bound (c : Char) : c.toNat < 55296 ∨ 57344 ≤ c.toNat ∧ c.toNat < 1114112 := by
  have := c.valid
  unfold UInt32.isValidChar Nat.isValidChar at this
  show c.val.toNat < 55296 ∨ 57344 ≤ c.val.toNat ∧ c.val.toNat < 1114112
  omega

theorem readUnits_escape (c : Char) (s : Text) :
    readUnits (escapeChar c ++ s) = (readUnits s).map fun x => (utf16 c ++ x.1, x.2) := by
  have hb := char_bound c
  unfold escapeChar
  by_cases h1 : c = '\\'
  · subst h1; rw [if_pos rfl]; exact readUnits_simple '\\' '\\' (by decide) rfl s
  rw [if_neg h1]
  by_cases h2 : c = '"'
  · subst h2; rw [if_pos rfl]; exact readUnits_simple '"' '"' (by decide) rfl s
  rw [if_neg h2]
  by_cases h3 : c = '\x08'
  · subst h3; rw [if_pos rfl]; exact readUnits_simple 'b' '\x08' (by decide) rfl s
  rw [if_neg h3]
  by_cases h4 : c = '\x0c'
  · subst h4; rw [if_pos rfl]; exact readUnits_simple 'f' '\x0c' (by decide) rfl s
  rw [if_neg h4]
  by_cases h5 : c = '\n'
  · subst h5; rw [if_pos rfl]; exact readUnits_simple 'n' '\n' (by decide) rfl s
  rw [if_neg h5]
  by_cases h6 : c = '\r'
  · subst h6; rw [if_pos rfl]; exact readUnits_simple 'r' '\r' (by decide) rfl s
  rw [if_neg h6]
  by_cases h7 : c = '\t'
  · subst h7; rw [if_pos rfl]; exact readUnits_simple 't' '\t' (by decide) rfl s
  rw [if_neg h7]
  by_cases h8 : 32 ≤ c.toNat ∧ c.toNat ≤ 126
  · rw [if_pos h8]
    show readUnits (c :: s) = _
    rw [readUnits.eq_def]
    simp only
    rw [if_neg h2, if_neg h1, if_neg (by omega)]
  rw [if_neg h8]
  by_cases h9 : c.toNat < 65536
  · rw [if_pos h9, readUnits_unicode _ h9]
    unfold utf16
    rw [if_pos h9]
    rfl
  · rw [if_neg h9, List.append_assoc, readUnits_unicode _ (by omega), readUnits_unicode _ (by omega), Option.map_map]
    unfold utf16
    rw [if_neg h9]
    rfl

theorem readUnits_text (t s : Text) :
    readUnits (t.flatMap escapeChar ++ '"' :: s) = some (t.flatMap utf16, s) := by
  induction t with
  | nil => exact readUnits_nil s
  | cons c t ih =>
    rw [List.flatMap_cons, List.flatMap_cons, List.append_assoc, readUnits_escape, ih]
    rfl

theorem ofNat_toNat (c : Char) : Char.ofNat c.toNat = c := Char.ofNat_toNat c

theorem fromUtf16_char (c : Char) (us : List Nat) : fromUtf16 (utf16 c ++ us) = (fromUtf16 us).map (c :: ·) := by
  have hb := char_bound c
  unfold utf16
  by_cases h : c.toNat < 65536
  · rw [if_pos h]
    show fromUtf16 (c.toNat :: us) = _
    rw [fromUtf16.eq_def]
    simp only
    rw [if_pos (by omega), ofNat_toNat]
  · rw [if_neg h]
    show fromUtf16 (_ :: _ :: us) = _
    rw [fromUtf16.eq_def]
    simp only
    rw [if_neg (by omega)]
    rw [if_pos (by omega)]
    have : 65536 + (55296 + (c.toNat - 65536) / 1024 - 55296) * 1024 + (56320 + (c.toNat - 65536) % 1024 - 56320) = c.toNat := by
      omega
    rw [this, ofNat_toNat]

theorem fromUtf16_text (t : Text) : fromUtf16 (t.flatMap utf16) = some t := by
  induction t with
  | nil => rfl
  | cons c t ih =>
    rw [List.flatMap_cons, fromUtf16_char, ih]
    rfl

theorem readString_text (t s : Text) : readString (t.flatMap escapeChar ++ '"' :: s) = some (t, s) := by
  unfold readString
  rw [readUnits_text]
  simp only [Option.bind_eq_bind, Option.bind_some]
  rw [fromUtf16_text]
  rfl

/-! ## Values -/

mutual
/-- The text of a value. -/
def J.text : J fl → Text
  | .null => "null".toList
  | .bool b => boolText b
  | .int n => intText n
  | .float x => fl.repr x
  | .str s => strText s
  | .arr js => '[' :: textList js ++ [']']
  | .obj kvs => '{' :: textItems kvs ++ ['}']
def textList : List (J fl) → Text
  | [] => []
  | [j] => j.text
  | j :: js => j.text ++ [',', ' '] ++ textList js
def textItems : List (Text × J fl) → Text
  | [] => []
  | [(k, j)] => strText k ++ [':', ' '] ++ j.text
  | (k, j) :: kvs => strText k ++ [':', ' '] ++ j.text ++ [',', ' '] ++ textItems kvs
end

mutual
/-- The depth of recursion that reading takes. -/
def J.need : J fl → Nat
  | .arr js => needList js + 1
  | .obj kvs => needItems kvs + 1
  | _ => 1
def needList : List (J fl) → Nat
  | [] => 0
  | j :: js => max j.need (needList js) + 1
def needItems : List (Text × J fl) → Nat
  | [] => 0
  | (_, j) :: kvs => max j.need (needItems kvs) + 1
end

/-- How a value begins. -/
theorem text_head (j : J fl) : ∃ c t, j.text = c :: t ∧ isWs c = false ∧ c ≠ ']' ∧ c ≠ '}' := by
  have hnum : ∀ w : Text, w ≠ [] → (∀ c ∈ w, isNumberChar c = true) →
      ∃ c t, w = c :: t ∧ isWs c = false ∧ c ≠ ']' ∧ c ≠ '}' := by
    intro w hne hw
    cases w with
    | nil => exact absurd rfl hne
    | cons c t =>
      have hc := hw c (List.mem_cons_self ..)
      have hno : ∀ d, isNumberChar d = false → c ≠ d := by
        rintro d hd rfl
        rw [hc] at hd
        cases hd
      refine ⟨c, t, rfl, ?_, hno _ (by decide), hno _ (by decide)⟩
      unfold isWs
      simp [hno ' ' (by decide), hno '\n' (by decide), hno '\r' (by decide), hno '\t' (by decide)]
  cases j with
  | null => exact ⟨_, _, by rw [J.text]; rfl, by decide, by decide, by decide⟩
  | bool b => cases b <;> exact ⟨_, _, by rw [J.text]; rfl, by decide, by decide, by decide⟩
  | int n =>
    rw [J.text]
    refine hnum _ ?_ (intText_chars n)
    cases n with
    | ofNat n => exact natText_ne n
    | negSucc n => simp [intText]
  | float x =>
    rw [J.text]
    refine hnum _ ?_ (float_chars x)
    obtain ⟨c, hc, _⟩ := fl.point x
    intro e
    rw [e] at hc
    cases hc
  | str s => exact ⟨'"', _, by rw [J.text]; rfl, by decide, by decide, by decide⟩
  | arr js => exact ⟨'[', _, by rw [J.text]; rfl, by decide, by decide, by decide⟩
  | obj kvs => exact ⟨'{', _, by rw [J.text]; rfl, by decide, by decide, by decide⟩

theorem skipWs_cons {c : Char} (h : isWs c = false) (s : Text) : skipWs (c :: s) = c :: s := by
  unfold skipWs
  simp [h]

theorem skipWs_space (s : Text) : skipWs (' ' :: s) = skipWs s := by
  unfold skipWs
  rw [List.dropWhile_cons]
  rfl

theorem skipWs_text (j : J fl) (r : Text) : skipWs (j.text ++ r) = j.text ++ r := by
  obtain ⟨c, t, e, h, _⟩ := text_head j
  rw [e]
  exact skipWs_cons h _

theorem ends_cons {c : Char} (h : isWordChar c = false) (r : Text) : Ends (c :: r) := by
  intro d hd
  simp only [List.head?_cons, Option.mem_def, Option.some.injEq] at hd
  rw [← hd]
  exact h

theorem strText_append (k r : Text) : strText k ++ r = '"' :: (k.flatMap escapeChar ++ '"' :: r) := by
  unfold strText
  simp

/-- Words are read as words. -/
theorem readValue_word {w r : Text} {c : Char} {t : Text} (e : w = c :: t) (hws : isWs c = false) (h1 : c ≠ '"') (h2 : c ≠ '[')
    (h3 : c ≠ '{') (n : Nat) : readValue (fl := fl) (n + 1) (w ++ r) = readWord (w ++ r) := by
  subst e
  rw [readValue]
  rw [show (c :: t) ++ r = c :: (t ++ r) from rfl, skipWs_cons hws]
  simp only
  rw [if_neg h1, if_neg h2, if_neg h3]

theorem number_head {w : Text} (hne : w ≠ []) (hw : ∀ c ∈ w, isNumberChar c = true) :
    ∃ c t, w = c :: t ∧ isWs c = false ∧ c ≠ '"' ∧ c ≠ '[' ∧ c ≠ '{' := by
  cases w with
  | nil => exact absurd rfl hne
  | cons c t =>
    have hc := hw c (List.mem_cons_self ..)
    have hno : ∀ d, isNumberChar d = false → c ≠ d := by
      rintro d hd rfl
      rw [hc] at hd
      cases hd
    refine ⟨c, t, rfl, ?_, hno _ (by decide), hno _ (by decide), hno _ (by decide)⟩
    unfold isWs
    simp [hno ' ' (by decide), hno '\n' (by decide), hno '\r' (by decide), hno '\t' (by decide)]

theorem readValue_space : ∀ (n : Nat) (s : Text), readValue (fl := fl) n (' ' :: s) = readValue n s
  | 0, _ => by rw [readValue, readValue]
  | n + 1, s => by rw [readValue, readValue, skipWs_space]

theorem readItems_space : ∀ (n : Nat) (s : Text), readItems (fl := fl) n (' ' :: s) = readItems n s
  | 0, _ => by rw [readItems, readItems]
  | n + 1, s => by rw [readItems, readItems, readValue_space]

theorem readMembers_space : ∀ (n : Nat) (s : Text), readMembers (fl := fl) n (' ' :: s) = readMembers n s
  | 0, _ => by rw [readMembers, readMembers]
  | n + 1, s => by rw [readMembers, readMembers, skipWs_space]

mutual
theorem readValue_text : ∀ (j : J fl) (n : Nat) (r : Text), j.need ≤ n → Ends r → readValue n (j.text ++ r) = some (j, r)
  | .null, n, r, hn, hr => by
    obtain ⟨n, rfl⟩ : ∃ m, n = m + 1 := ⟨n - 1, by simp [J.need] at hn; omega⟩
    rw [J.text, readValue_word (w := "null".toList) (c := 'n') (t := "ull".toList) rfl (by decide) (by decide) (by decide) (by decide),
      readWord_eq _ _ (by decide) hr, if_pos rfl]
  | .bool true, n, r, hn, hr => by
    obtain ⟨n, rfl⟩ : ∃ m, n = m + 1 := ⟨n - 1, by simp [J.need] at hn; omega⟩
    rw [J.text, show boolText true = "true".toList from rfl, readValue_word (w := "true".toList) (c := 't') (t := "rue".toList) rfl (by decide) (by decide) (by decide) (by decide),
      readWord_eq _ _ (by decide) hr, if_neg (by decide), if_pos rfl]
  | .bool false, n, r, hn, hr => by
    obtain ⟨n, rfl⟩ : ∃ m, n = m + 1 := ⟨n - 1, by simp [J.need] at hn; omega⟩
    rw [J.text, show boolText false = "false".toList from rfl, readValue_word (w := "false".toList) (c := 'f') (t := "alse".toList) rfl (by decide) (by decide) (by decide) (by decide),
      readWord_eq _ _ (by decide) hr, if_neg (by decide), if_neg (by decide), if_pos rfl]
  | .int i, n, r, hn, hr => by
    obtain ⟨n, rfl⟩ : ∃ m, n = m + 1 := ⟨n - 1, by simp [J.need] at hn; omega⟩
    have hne : intText i ≠ [] := by
      cases i with
      | ofNat n => exact natText_ne n
      | negSucc n => simp [intText]
    obtain ⟨c, t, e, h1, h2, h3, h4⟩ := number_head hne (intText_chars i)
    rw [J.text, readValue_word e h1 h2 h3 h4, readWord_number (intText_chars i) hr (readNumber_int i)]
  | .float x, n, r, hn, hr => by
    obtain ⟨n, rfl⟩ : ∃ m, n = m + 1 := ⟨n - 1, by simp [J.need] at hn; omega⟩
    have hne : fl.repr x ≠ [] := by
      obtain ⟨c, hc, _⟩ := fl.point x
      intro e
      rw [e] at hc
      cases hc
    obtain ⟨c, t, e, h1, h2, h3, h4⟩ := number_head hne (float_chars x)
    rw [J.text, readValue_word e h1 h2 h3 h4, readWord_number (float_chars x) hr (readNumber_float x)]
  | .str s, n, r, hn, hr => by
    obtain ⟨n, rfl⟩ : ∃ m, n = m + 1 := ⟨n - 1, by simp [J.need] at hn; omega⟩
    rw [J.text, strText_append, readValue, skipWs_cons (by decide)]
    simp only
    rw [if_pos trivial, readString_text]
    rfl
  | .arr [], n, r, hn, hr => by
    obtain ⟨n, rfl⟩ : ∃ m, n = m + 1 := ⟨n - 1, by simp [J.need] at hn; omega⟩
    rw [J.text, textList]
    show readValue (n + 1) ('[' :: ']' :: r) = _
    rw [readValue, skipWs_cons (by decide)]
    simp only
    rw [if_neg (by decide), if_pos trivial, skipWs_cons (by decide), if_pos (by rfl)]
    rfl
  | .arr (j :: js), n, r, hn, hr => by
    obtain ⟨n, rfl⟩ : ∃ m, n = m + 1 := ⟨n - 1, by simp [J.need] at hn; omega⟩
    rw [J.need] at hn
    rw [J.text]
    show readValue (n + 1) ('[' :: (textList (j :: js) ++ [']'] ++ r)) = _
    rw [readValue, skipWs_cons (by decide)]
    simp only
    rw [if_neg (by decide), if_pos trivial]
    have hhead : ∃ c t, textList (j :: js) = c :: t ∧ isWs c = false ∧ c ≠ ']' := by
      obtain ⟨c, t, e, h1, h2, _⟩ := text_head j
      cases js with
      | nil => exact ⟨c, t, by rw [textList]; exact e, h1, h2⟩
      | cons k ks =>
        rw [textList]
        · rw [e]; exact ⟨c, _, rfl, h1, h2⟩
        · intro e'; cases e'
    obtain ⟨c, t, e, h1, h2⟩ := hhead
    have hskip : skipWs (textList (j :: js) ++ [']'] ++ r) = textList (j :: js) ++ [']'] ++ r := by
      rw [e]
      exact skipWs_cons h1 _
    rw [hskip, if_neg (by rw [e]; simpa using h2)]
    rw [List.append_assoc]
    have := readItems_text j js n r (by omega)
    rw [show [']'] ++ r = ']' :: r from rfl, this]
    rfl
  | .obj [], n, r, hn, hr => by
    obtain ⟨n, rfl⟩ : ∃ m, n = m + 1 := ⟨n - 1, by simp [J.need] at hn; omega⟩
    rw [J.text, textItems]
    show readValue (n + 1) ('{' :: '}' :: r) = _
    rw [readValue, skipWs_cons (by decide)]
    simp only
    rw [if_neg (by decide), if_neg (by decide), if_pos trivial, skipWs_cons (by decide), if_pos (by rfl)]
    rfl
  | .obj ((k, j) :: kvs), n, r, hn, hr => by
    obtain ⟨n, rfl⟩ : ∃ m, n = m + 1 := ⟨n - 1, by simp [J.need] at hn; omega⟩
    rw [J.need] at hn
    rw [J.text]
    show readValue (n + 1) ('{' :: (textItems ((k, j) :: kvs) ++ ['}'] ++ r)) = _
    rw [readValue, skipWs_cons (by decide)]
    simp only
    rw [if_neg (by decide), if_neg (by decide), if_pos trivial]
    have hhead : ∃ t, textItems ((k, j) :: kvs) = '"' :: t := by
      cases kvs with
      | nil => exact ⟨_, by rw [textItems, List.append_assoc, strText_append]⟩
      | cons x xs =>
        rw [textItems]
        · exact ⟨_, by rw [List.append_assoc, List.append_assoc, List.append_assoc, strText_append]⟩
        · intro e'; cases e'
    obtain ⟨t, e⟩ := hhead
    have hskip : skipWs (textItems ((k, j) :: kvs) ++ ['}'] ++ r) = textItems ((k, j) :: kvs) ++ ['}'] ++ r := by
      rw [e]
      exact skipWs_cons (by decide) _
    rw [hskip, if_neg (by rw [e]; simp)]
    rw [List.append_assoc]
    have := readMembers_text k j kvs n r (by omega)
    rw [show ['}'] ++ r = '}' :: r from rfl, this]
    rfl
termination_by j => sizeOf j
decreasing_by all_goals (simp; try omega)
theorem readItems_text : ∀ (j : J fl) (js : List (J fl)) (n : Nat) (r : Text), needList (j :: js) ≤ n →
    readItems n (textList (j :: js) ++ ']' :: r) = some (j :: js, r)
  | j, [], n, r, hn => by
    rw [needList] at hn
    obtain ⟨n, rfl⟩ : ∃ m, n = m + 1 := ⟨n - 1, by omega⟩
    rw [textList, readItems, readValue_text j n (']' :: r) (by omega) (ends_cons (by decide) r)]
    simp only
    rw [skipWs_cons (by decide)]
    simp only
    rw [if_pos trivial]
  | j, k :: ks, n, r, hn => by
    rw [needList] at hn
    obtain ⟨n, rfl⟩ : ∃ m, n = m + 1 := ⟨n - 1, by omega⟩
    rw [textList]
    · rw [List.append_assoc, List.append_assoc, readItems]
      rw [show [',', ' '] ++ (textList (k :: ks) ++ ']' :: r) = ',' :: ' ' :: (textList (k :: ks) ++ ']' :: r) from rfl]
      rw [readValue_text j n _ (by omega) (ends_cons (by decide) _)]
      simp only
      rw [skipWs_cons (by decide)]
      simp only
      rw [if_neg (by decide), if_pos trivial, readItems_space]
      rw [readItems_text k ks n r (by omega)]
      rfl
    · intro e; cases e
termination_by j js => sizeOf (j :: js)
decreasing_by all_goals (simp; try omega)
theorem readMembers_text : ∀ (k : Text) (j : J fl) (kvs : List (Text × J fl)) (n : Nat) (r : Text),
    needItems ((k, j) :: kvs) ≤ n → readMembers n (textItems ((k, j) :: kvs) ++ '}' :: r) = some ((k, j) :: kvs, r)
  | k, j, [], n, r, hn => by
    rw [needItems] at hn
    obtain ⟨n, rfl⟩ : ∃ m, n = m + 1 := ⟨n - 1, by omega⟩
    rw [textItems, List.append_assoc, List.append_assoc, strText_append, readMembers, skipWs_cons (by decide)]
    simp only
    rw [if_pos trivial, readString_text]
    simp only
    rw [show [':', ' '] ++ (j.text ++ '}' :: r) = ':' :: ' ' :: (j.text ++ '}' :: r) from rfl, skipWs_cons (by decide)]
    simp only
    rw [if_pos trivial, readValue_space, readValue_text j n _ (by omega) (ends_cons (by decide) _)]
    simp only
    rw [skipWs_cons (by decide)]
    simp only
    rw [if_pos trivial]
  | k, j, (l, i) :: kvs, n, r, hn => by
    rw [needItems] at hn
    obtain ⟨n, rfl⟩ : ∃ m, n = m + 1 := ⟨n - 1, by omega⟩
    rw [textItems]
    · rw [List.append_assoc, List.append_assoc, List.append_assoc, List.append_assoc, strText_append, readMembers,
        skipWs_cons (by decide)]
      simp only
      rw [if_pos trivial, readString_text]
      simp only
      rw [show ∀ x, [':', ' '] ++ x = ':' :: ' ' :: x from fun _ => rfl, skipWs_cons (by decide)]
      simp only
      rw [if_pos trivial, readValue_space]
      rw [show ∀ x, [',', ' '] ++ x = ',' :: ' ' :: x from fun _ => rfl]
      rw [readValue_text j n _ (by omega) (ends_cons (by decide) _)]
      simp only
      rw [skipWs_cons (by decide)]
      simp only
      rw [if_neg (by decide), if_pos trivial, readMembers_space, readMembers_text l i kvs n r (by omega)]
      rfl
    · intro e; cases e
termination_by k j kvs => sizeOf ((k, j) :: kvs)
decreasing_by all_goals (simp; try omega)
end

end Pulumi.Json
