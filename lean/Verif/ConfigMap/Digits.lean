import Verif.ConfigMap.Spec
/-! # The decimals of a number -/
namespace Pulumi.ConfigMap

theorem digit_cases {c : Char} (h : c.isDigit = true) : c.toNat - '0'.toNat < 10 ∧ Nat.digitChar (c.toNat - '0'.toNat) = c := by
  have h1 : 48 ≤ c.toNat ∧ c.toNat ≤ 57 := by
    simp only [Char.isDigit, Bool.and_eq_true, decide_eq_true_eq] at h
    exact ⟨h.1, h.2⟩
  have h0 : '0'.toNat = 48 := rfl
  rw [h0]
  refine ⟨by omega, ?_⟩
  have hc : c = Char.ofNat c.toNat := by simp
  obtain ⟨n, hn⟩ : ∃ n, c.toNat = n := ⟨_, rfl⟩
  rw [hn] at h1 hc ⊢
  subst hc
  have : n = 48 ∨ n = 49 ∨ n = 50 ∨ n = 51 ∨ n = 52 ∨ n = 53 ∨ n = 54 ∨ n = 55 ∨ n = 56 ∨ n = 57 := by omega
  rcases this with rfl | rfl | rfl | rfl | rfl | rfl | rfl | rfl | rfl | rfl <;> rfl

theorem ofDigits_pos {ds : List Char} {c : Char} {n : Nat} (h : (c.isDigit && c != '0') = true ∨ 0 < n) :
    0 < Nat.ofDigitChars 10 (c :: ds) n := by
  induction ds generalizing c n with
  | nil =>
    rw [Nat.ofDigitChars_cons, Nat.ofDigitChars_nil]
    rcases h with h | h
    · simp only [Bool.and_eq_true, bne_iff_ne, ne_eq] at h
      have h2 := (digit_cases h.1).2
      by_cases h0 : c.toNat - '0'.toNat = 0
      · rw [h0] at h2
        exact absurd h2.symm h.2
      · omega
    · omega
  | cons d ds ih =>
    rw [Nat.ofDigitChars_cons]
    refine ih (.inr ?_)
    rcases h with h | h
    · simp only [Bool.and_eq_true, bne_iff_ne, ne_eq] at h
      have h2 := (digit_cases h.1).2
      by_cases h0 : c.toNat - '0'.toNat = 0
      · rw [h0] at h2
        exact absurd h2.symm h.2
      · omega
    · omega

theorem toDigits_snoc (ds : List Char) (hall : ds.all Char.isDigit = true) (n : Nat) (hn : 0 < n) :
    Nat.toDigits 10 (Nat.ofDigitChars 10 ds n) = Nat.toDigits 10 n ++ ds := by
  induction ds generalizing n with
  | nil => rw [Nat.ofDigitChars_nil, List.append_nil]
  | cons c ds ih =>
    simp only [List.all_cons, Bool.and_eq_true] at hall
    obtain ⟨h1, h2⟩ := digit_cases hall.1
    rw [Nat.ofDigitChars_cons, ih hall.2 _ (by omega), ← Nat.toDigits_append_toDigits (by decide) hn h1, Nat.toDigits_of_lt_base h1, h2]
    simp

/-- Decimals without a leading zero are those of their number. -/
theorem toDigits_ofDigits (c : Char) (ds : List Char) (hall : (c :: ds).all Char.isDigit = true) (h0 : c ≠ '0' ∨ ds = []) :
    Nat.toDigits 10 (Nat.ofDigitChars 10 (c :: ds) 0) = c :: ds := by
  simp only [List.all_cons, Bool.and_eq_true] at hall
  obtain ⟨h1, h2⟩ := digit_cases hall.1
  rw [Nat.ofDigitChars_cons, Nat.mul_zero, Nat.zero_add]
  by_cases hd : ds = []
  · subst hd
    rw [Nat.ofDigitChars_nil, Nat.toDigits_of_lt_base h1, h2]
  · have hc : c ≠ '0' := h0.resolve_right hd
    have hp : 0 < c.toNat - '0'.toNat := by
      by_cases hz : c.toNat - '0'.toNat = 0
      · rw [hz] at h2
        exact absurd h2.symm hc
      · omega
    rw [toDigits_snoc ds hall.2 _ hp, Nat.toDigits_of_lt_base h1, h2]
    rfl

/-- A whole number is written as it was, unless it starts with a plus sign or with a needless zero. -/
theorem intText_parseInt (s : List Char) (i : Int) (h : Paths.parseInt s = some i) (hz : ¬(s.length > 1 ∧ s.head? = some '0')) :
    Paths.intText i = s ∨ ['+'] <+: s ∨ ['-', '0'] <+: s := by
  cases s with
  | nil => cases h
  | cons c ds =>
    unfold Paths.parseInt at h
    simp only at h
    by_cases hm : c = '-'
    · subst hm
      rw [if_pos rfl] at h
      unfold Paths.parseDigits at h
      split at h
      · cases h
      · rename_i hd
        simp only [if_true] at h
        split at h
        · cases h
          have hall : ds.all Char.isDigit = true := by
            cases ha : ds.all Char.isDigit with
            | true => rfl
            | false => exact absurd (.inr ha) hd
          cases ds with
          | nil => exact absurd (.inl rfl) hd
          | cons d ds =>
            by_cases hd0 : d = '0'
            · subst hd0
              exact .inr (.inr ⟨ds, rfl⟩)
            · left
              have hp : 0 < Nat.ofDigitChars 10 (d :: ds) 0 := by
                refine ofDigits_pos (.inl ?_)
                simp only [List.all_cons, Bool.and_eq_true] at hall
                simp [hall.1, hd0]
              have hdig := toDigits_ofDigits d ds hall (.inl hd0)
              obtain ⟨n, hn⟩ : ∃ n, Nat.ofDigitChars 10 (d :: ds) 0 = n + 1 := ⟨_, (Nat.succ_pred_eq_of_pos hp).symm⟩
              rw [hn] at hdig ⊢
              have : (-((n + 1 : Nat) : Int)) = Int.negSucc n := rfl
              rw [this, Paths.intText, hdig]
        · cases h
    · rw [if_neg hm] at h
      by_cases hpl : c = '+'
      · subst hpl
        exact .inr (.inl ⟨ds, rfl⟩)
      · rw [if_neg hpl] at h
        unfold Paths.parseDigits at h
        split at h
        · cases h
        · rename_i hd
          simp only [Bool.false_eq_true, if_false] at h
          split at h
          · cases h
            have hall : (c :: ds).all Char.isDigit = true := by
              cases ha : (c :: ds).all Char.isDigit with
              | true => rfl
              | false => exact absurd (.inr ha) hd
            left
            refine toDigits_ofDigits c ds hall ?_
            by_cases hc0 : c = '0'
            · right
              subst hc0
              cases ds with
              | nil => rfl
              | cons d ds => exact absurd ⟨by simp, rfl⟩ hz
            · exact .inl hc0
          · cases h

end Pulumi.ConfigMap
