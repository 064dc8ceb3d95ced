import Verif.Paths.Spec
/-!
# Lemmas about paths
-/
namespace Pulumi.Paths
open Pulumi.Engine (EV)

theorem upToBracket_shorter : ∀ (s seg rest : Text), upToBracket s = some (seg, rest) → rest.length < s.length := by
  intro s
  induction s with
  | nil => intro seg rest h; simp [upToBracket] at h
  | cons c s ih =>
    intro seg rest h
    unfold upToBracket at h
    by_cases hc : c = ']'
    · rw [if_pos hc] at h; cases h; simp
    · rw [if_neg hc] at h
      cases hu : upToBracket s with
      | none => rw [hu] at h; cases h
      | some sr =>
        rw [hu] at h
        cases h
        have := ih sr.1 sr.2 hu
        simp only [List.length_cons]; omega

theorem quotedKey_shorter : ∀ (n : Nat) (s k rest : Text), s.length ≤ n → quotedKey s = some (k, rest) → rest.length < s.length := by
  intro n
  induction n with
  | zero =>
    intro s k rest hn h
    cases s with
    | nil => simp [quotedKey] at h
    | cons c s => simp at hn
  | succ n ih =>
    intro s k rest hn h
    match s with
    | [] => simp [quotedKey] at h
    | [c] =>
      unfold quotedKey at h
      by_cases hc : c = '"'
      · rw [if_pos hc] at h; cases h; simp
      · rw [if_neg hc] at h; cases h
    | c :: d :: s =>
      unfold quotedKey at h
      by_cases hc : c = '"'
      · rw [if_pos hc] at h; cases h; simp
      · rw [if_neg hc] at h
        by_cases hd : c = '\\' ∧ d = '"'
        · rw [if_pos hd] at h
          cases hq : quotedKey s with
          | none => rw [hq] at h; cases h
          | some kr =>
            rw [hq] at h; cases h
            have := ih s kr.1 kr.2 (by simp only [List.length_cons] at hn; omega) hq
            simp only [List.length_cons]; omega
        · rw [if_neg hd] at h
          cases hq : quotedKey (d :: s) with
          | none => rw [hq] at h; cases h
          | some kr =>
            rw [hq] at h; cases h
            have := ih (d :: s) kr.1 kr.2 (by simp only [List.length_cons] at hn ⊢; omega) hq
            simp only [List.length_cons] at this ⊢; omega

theorem indexElement_shorter {s : Text} {k : Key} {rest : Text} (h : indexElement s = .ok (k, rest)) : rest.length < s.length := by
  unfold indexElement at h
  cases hu : upToBracket s with
  | none => rw [hu] at h; cases h
  | some sr =>
    rw [hu] at h
    simp only at h
    have hs := upToBracket_shorter s sr.1 sr.2 hu
    by_cases hst : sr.1 = ['*']
    · rw [if_pos hst] at h; cases h; exact hs
    · rw [if_neg hst] at h
      cases hp : parseInt sr.1 with
      | none => rw [hp] at h; cases h
      | some i => rw [hp] at h; cases h; exact hs

theorem bracket_shorter {s : Text} {k : Key} {rest : Text} (h : bracket s = .ok (k, rest)) : rest.length < s.length := by
  cases s with
  | nil => exact indexElement_shorter (s := []) h
  | cons c s =>
    unfold bracket at h
    simp only at h
    by_cases hc : c = '"'
    · rw [if_pos hc] at h
      unfold quotedElement at h
      cases hq : quotedKey s with
      | none => rw [hq] at h; cases h
      | some kr =>
        rw [hq] at h
        obtain ⟨k', r⟩ := kr
        have hs := quotedKey_shorter s.length s k' r (Nat.le_refl _) hq
        cases r with
        | nil => cases h
        | cons d r =>
          simp only at h
          by_cases hd : d = ']'
          · rw [if_pos hd] at h; cases h
            simp only [List.length_cons] at hs ⊢; omega
          · rw [if_neg hd] at h; cases h
    · rw [if_neg hc] at h; exact indexElement_shorter h

theorem bareName_shorter (s : Text) : (bareName s).2.length ≤ s.length := by
  induction s with
  | nil => simp [bareName]
  | cons c s ih =>
    unfold bareName
    by_cases hc : c = '.' ∨ c = '['
    · rw [if_pos hc]; simp
    · rw [if_neg hc]; simp only [List.length_cons]; omega

theorem bareName_cons_shorter {c : Char} {s : Text} (hc : ¬ (c = '.' ∨ c = '[')) : (bareName (c :: s)).2.length ≤ s.length := by
  unfold bareName
  rw [if_neg hc]
  exact bareName_shorter s

theorem parseLoop_any : ∀ (a : Nat) (u : Text), u.length ≤ a → ∀ b, u.length ≤ b → parseLoop a u = parseLoop b u := by
  intro a
  induction a with
  | zero =>
    intro u hu b _
    cases u with
    | nil => cases b <;> rfl
    | cons _ _ => simp at hu
  | succ a iha =>
    intro u hu b hb
    cases u with
    | nil => cases b <;> rfl
    | cons d u =>
      cases b with
      | zero => simp at hb
      | succ b =>
        have hua : u.length ≤ a := by simpa using hu
        have hub : u.length ≤ b := by simpa using hb
        unfold parseLoop
        by_cases h1 : d = '.'
        · rw [if_pos h1, if_pos h1]; exact iha u hua b hub
        · rw [if_neg h1, if_neg h1]
          by_cases h2 : d = '['
          · rw [if_pos h2, if_pos h2]
            cases hbr : bracket u with
            | error e => rfl
            | ok kr =>
              simp only
              have := bracket_shorter hbr
              rw [iha kr.2 (by omega) b (by omega)]
          · rw [if_neg h2, if_neg h2]
            have := bareName_cons_shorter (s := u) (c := d) (by intro h; cases h <;> contradiction)
            rw [iha _ (by omega) b (by omega)]

theorem parseLoop_fuel (n : Nat) (s : Text) (h : s.length ≤ n) : parseLoop n s = parse s :=
  parseLoop_any n s h s.length (Nat.le_refl _)

theorem parse_nil : parse [] = .ok [] := rfl

theorem parse_dot (s : Text) : parse ('.' :: s) = parse s := by
  show parseLoop (s.length + 1) ('.' :: s) = _
  unfold parseLoop
  rw [if_pos rfl]
  rfl

theorem parse_bracket_ok {s : Text} {k : Key} {rest : Text} (h : bracket s = .ok (k, rest)) :
    parse ('[' :: s) = (parse rest).map (k :: ·) := by
  show parseLoop (s.length + 1) ('[' :: s) = _
  unfold parseLoop
  rw [if_neg (by decide), if_pos rfl, h]
  simp only
  rw [parseLoop_fuel _ _ (Nat.le_of_lt (bracket_shorter h))]

theorem parse_bracket_err {s : Text} {e : PathErr} (h : bracket s = .error e) : parse ('[' :: s) = .error e := by
  show parseLoop (s.length + 1) ('[' :: s) = _
  unfold parseLoop
  rw [if_neg (by decide), if_pos rfl, h]

theorem parse_bare {c : Char} {s : Text} (hc : ¬ (c = '.' ∨ c = '[')) :
    parse (c :: s) = (parse (bareName (c :: s)).2).map (.name (bareName (c :: s)).1 :: ·) := by
  show parseLoop (s.length + 1) (c :: s) = _
  unfold parseLoop
  rw [if_neg (fun h => hc (.inl h)), if_neg (fun h => hc (.inr h)), parseLoop_fuel _ _ (bareName_cons_shorter hc)]

/-! ## writing and reading -/

/-- nothing, or the beginning of another key -/
def Boundary (t : Text) : Prop := t = [] ∨ ∃ c r, t = c :: r ∧ (c = '.' ∨ c = '[')

theorem bareName_append : ∀ (k t : Text), (∀ c ∈ k, c ≠ '.' ∧ c ≠ '[') → Boundary t → bareName (k ++ t) = (k, t) := by
  intro k
  induction k with
  | nil =>
    intro t _ ht
    cases ht with
    | inl h => subst h; rfl
    | inr h =>
      obtain ⟨c, r, rfl, hc⟩ := h
      simp [bareName, hc]
  | cons c k ih =>
    intro t hk ht
    have hc := hk c (by simp)
    simp only [List.cons_append]
    unfold bareName
    rw [if_neg (by rintro (h | h); exact hc.1 h; exact hc.2 h), ih t (fun d hd => hk d (by simp [hd])) ht]

theorem quotedKey_escape : ∀ (k r : Text), k.getLast? ≠ some '\\' → quotedKey (escape k ++ '"' :: r) = some (k, r) := by
  intro k
  induction k with
  | nil =>
    intro r _
    cases r with
    | nil => rfl
    | cons d r => simp [escape, quotedKey]
  | cons c k ih =>
    intro r hk
    have hk' : k.getLast? ≠ some '\\' := by
      intro h
      apply hk
      cases k with
      | nil => simp at h
      | cons d k => rw [List.getLast?_cons_cons]; exact h
    unfold escape
    by_cases hc : c = '"'
    · rw [if_pos hc]
      simp only [List.cons_append]
      unfold quotedKey
      rw [if_neg (by decide), if_pos ⟨rfl, rfl⟩, ih r hk']
      subst hc; rfl
    · rw [if_neg hc]
      simp only [List.cons_append]
      -- the next character
      have hnext : ∃ d t, escape k ++ '"' :: r = d :: t ∧ ¬ (c = '\\' ∧ d = '"') := by
        cases k with
        | nil =>
          refine ⟨'"', r, rfl, ?_⟩
          rintro ⟨h, _⟩
          apply hk; simp [h]
        | cons e k =>
          unfold escape
          by_cases he : e = '"'
          · rw [if_pos he]; exact ⟨'\\', _, rfl, by rintro ⟨_, h⟩; exact absurd h (by decide)⟩
          · rw [if_neg he]; exact ⟨e, _, rfl, by rintro ⟨_, h⟩; exact he h⟩
      obtain ⟨d, t, hdt, hcd⟩ := hnext
      rw [hdt]
      unfold quotedKey
      rw [if_neg hc, if_neg hcd, ← hdt, ih r hk']
      rfl

theorem upToBracket_append : ∀ (s t : Text), (∀ c ∈ s, c ≠ ']') → upToBracket (s ++ ']' :: t) = some (s, t) := by
  intro s
  induction s with
  | nil => intro t _; simp [upToBracket]
  | cons c s ih =>
    intro t h
    simp only [List.cons_append]
    unfold upToBracket
    rw [if_neg (h c (by simp)), ih t (fun d hd => h d (by simp [hd]))]
    rfl

theorem toDigits_digits (n : Nat) : (Nat.toDigits 10 n).all Char.isDigit = true :=
  List.all_eq_true.2 (fun _ hc => Nat.isDigit_of_mem_toDigits (b := 10) (by decide) (by decide) hc)

theorem parseInt_intText (i : Int) (h : -(2 ^ 63) ≤ i ∧ i < 2 ^ 63) : parseInt (intText i) = some i := by
  cases i with
  | ofNat n =>
    have hall := toDigits_digits n
    unfold intText
    simp only
    cases hd : Nat.toDigits 10 n with
    | nil => exact absurd hd (Nat.toDigits_ne_nil)
    | cons c ds =>
      have hc : c.isDigit = true := by
        rw [hd] at hall
        simp only [List.all_cons, Bool.and_eq_true] at hall
        exact hall.1
      unfold parseInt
      simp only
      rw [if_neg (by rintro rfl; exact absurd hc (by decide)), if_neg (by rintro rfl; exact absurd hc (by decide)), ← hd]
      unfold parseDigits
      rw [if_neg (by rintro (h0 | h0); exact Nat.toDigits_ne_nil h0; rw [toDigits_digits] at h0; cases h0)]
      rw [Nat.ofDigitChars_ten_toDigits]
      have : n < 2 ^ 63 := by have := h.2; simp only [Int.ofNat_eq_natCast] at this; omega
      simp [this]
  | negSucc n =>
    unfold intText parseInt
    simp only [if_true]
    unfold parseDigits
    rw [if_neg (by rintro (h0 | h0); exact Nat.toDigits_ne_nil h0; rw [toDigits_digits] at h0; cases h0)]
    rw [Nat.ofDigitChars_ten_toDigits]
    have : n + 1 ≤ 2 ^ 63 := by have := h.1; omega
    simp [this, Int.negSucc_eq]

theorem intText_chars (i : Int) : ∀ c ∈ intText i, c = '-' ∨ c.isDigit = true := by
  intro c hc
  cases i with
  | ofNat n => exact .inr (Nat.isDigit_of_mem_toDigits (b := 10) (by decide) (by decide) hc)
  | negSucc n =>
    unfold intText at hc
    simp only [List.mem_cons] at hc
    cases hc with
    | inl h => exact .inl h
    | inr h => exact .inr (Nat.isDigit_of_mem_toDigits (b := 10) (by decide) (by decide) h)

theorem intText_ne_nil (i : Int) : intText i ≠ [] := by
  cases i with
  | ofNat n => exact Nat.toDigits_ne_nil
  | negSucc n => simp [intText]

theorem parse_keyText (b : Bool) (k : Key) (t : Text) (hk : Printable k) (ht : Boundary t) :
    parse (keyText b k ++ t) = (parse t).map (k :: ·) := by
  cases k with
  | name k =>
    unfold keyText
    simp only
    by_cases hq : k.any requiresQuote = true
    · rw [if_pos hq]
      simp only [List.cons_append, List.append_assoc, List.nil_append]
      apply parse_bracket_ok
      unfold bracket
      simp only [if_true]
      unfold quotedElement
      rw [quotedKey_escape k _ hk.2]
      simp
    · rw [if_neg hq]
      have hchars : ∀ c ∈ k, c ≠ '.' ∧ c ≠ '[' := by
        intro c hc
        have hn : requiresQuote c = false := by
          cases hr : requiresQuote c with
          | false => rfl
          | true => exact absurd (List.any_eq_true.2 ⟨c, hc, hr⟩) hq
        constructor
        · rintro rfl; exact absurd hn (by decide)
        · rintro rfl; exact absurd hn (by decide)
      have hbare : parse (k ++ t) = (parse t).map (.name k :: ·) := by
        cases k with
        | nil => exact absurd rfl hk.1
        | cons c k =>
          have hc := hchars c (by simp)
          rw [List.cons_append, parse_bare (by rintro (h | h); exact hc.1 h; exact hc.2 h), ← List.cons_append,
            bareName_append _ _ hchars ht]
      cases b with
      | true => simpa using hbare
      | false =>
        simp only [Bool.false_eq_true, if_false, List.cons_append]
        rw [parse_dot, hbare]
  | idx i =>
    unfold keyText
    simp only [List.cons_append, List.append_assoc, List.nil_append]
    apply parse_bracket_ok
    have hne := intText_ne_nil i
    have hch := intText_chars i
    have hindex : indexElement (intText i ++ ']' :: t) = .ok (.idx i, t) := by
      unfold indexElement
      rw [upToBracket_append _ _ (by
        intro c hc h
        subst h
        cases hch _ hc with
        | inl h => exact absurd h (by decide)
        | inr h => exact absurd h (by decide))]
      simp only
      rw [if_neg (by
        intro h
        have := hch '*' (by rw [h]; simp)
        cases this with
        | inl h => exact absurd h (by decide)
        | inr h => exact absurd h (by decide)), parseInt_intText i hk]
    cases hd : intText i with
    | nil => exact absurd hd hne
    | cons c ds =>
      rw [hd] at hindex
      simp only [List.cons_append] at hindex ⊢
      unfold bracket
      simp only
      rw [if_neg (by
        rintro rfl
        have := hch '"' (by rw [hd]; simp)
        cases this with
        | inl h => exact absurd h (by decide)
        | inr h => exact absurd h (by decide))]
      exact hindex

theorem keyText_boundary (k : Key) (t : Text) : Boundary (keyText false k ++ t) := by
  right
  cases k with
  | name k =>
    unfold keyText
    simp only
    by_cases hq : k.any requiresQuote = true
    · rw [if_pos hq]; exact ⟨'[', _, rfl, .inr rfl⟩
    · rw [if_neg hq]; exact ⟨'.', _, rfl, .inl rfl⟩
  | idx i => exact ⟨'[', _, rfl, .inr rfl⟩

theorem rest_boundary (ks : Path) : Boundary ((ks.map (keyText false)).flatten) := by
  cases ks with
  | nil => exact .inl rfl
  | cons k ks => exact keyText_boundary k _

theorem parse_rest : ∀ (ks : Path), (∀ k ∈ ks, Printable k) → parse ((ks.map (keyText false)).flatten) = .ok ks := by
  intro ks
  induction ks with
  | nil => intro _; rfl
  | cons k ks ih =>
    intro h
    simp only [List.map_cons, List.flatten_cons]
    rw [parse_keyText false k _ (h k (by simp)) (rest_boundary ks), ih (fun j hj => h j (by simp [hj]))]
    rfl

end Pulumi.Paths
