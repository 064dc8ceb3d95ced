import Verif.Providers.Defaults
import Verif.Urn.Lemmas
import Verif.Construct.Lemmas
/-! Lemmas about the names and keys of default providers. -/
namespace Pulumi.Providers
open Pulumi.Plugins (Version Ident)
open Pulumi.Urn (Text splitChar splitChar_noSep splitChar_append)

theorem cut {c : Char} {a b a' b' : Text} (ha : c ∉ a) (ha' : c ∉ a') (h : a ++ c :: b = a' ++ c :: b') : a = a' ∧ b = b' := by
  induction a generalizing a' with
  | nil =>
    cases a' with
    | nil => cases h; exact ⟨rfl, rfl⟩
    | cons x a' =>
      simp only [List.nil_append, List.cons_append, List.cons.injEq] at h
      exact absurd (by rw [h.1]; exact List.mem_cons_self) ha'
  | cons x a ih =>
    cases a' with
    | nil =>
      simp only [List.nil_append, List.cons_append, List.cons.injEq] at h
      exact absurd (by rw [← h.1]; exact List.mem_cons_self) ha
    | cons y a' =>
      simp only [List.cons_append, List.cons.injEq] at h
      obtain ⟨e1, e2⟩ := ih (fun hm => ha (List.mem_cons_of_mem _ hm)) (fun hm => ha' (List.mem_cons_of_mem _ hm)) h.2
      rw [h.1, e1, e2]
      exact ⟨rfl, rfl⟩

theorem cutLast {c : Char} {a b a' b' : Text} (hb : c ∉ b) (hb' : c ∉ b') (h : a ++ c :: b = a' ++ c :: b') : a = a' ∧ b = b' := by
  have h1 := congrArg List.reverse h
  simp only [List.reverse_append, List.reverse_cons, List.append_assoc, List.singleton_append] at h1
  obtain ⟨e1, e2⟩ := cut (by simpa using hb) (by simpa using hb') h1
  exact ⟨List.reverse_inj.mp e2, List.reverse_inj.mp e1⟩

theorem cutWhile {P : Char → Bool} {a b a' b' : Text} (ha : a.all P = true) (ha' : a'.all P = true) (hb : ∀ c, b.head? = some c → P c = false)
    (hb' : ∀ c, b'.head? = some c → P c = false) (h : a ++ b = a' ++ b') : a = a' ∧ b = b' := by
  have key : ∀ x y : Text, x.all P = true → (∀ c, y.head? = some c → P c = false) → (x ++ y).takeWhile P = x := by
    intro x y hx hy
    rw [List.takeWhile_append_of_pos (fun c hc => List.all_eq_true.mp hx c hc)]
    cases y with
    | nil => simp
    | cons d y => rw [List.takeWhile_cons_of_neg (by rw [hy d rfl]; simp)]; simp
  have e : a = a' := by rw [← key a b ha hb, ← key a' b' ha' hb', h]
  subst e
  exact ⟨rfl, List.append_cancel_left h⟩

theorem digits_inj {m n : Nat} (h : digits m = digits n) : m = n := by
  have := congrArg (fun l => Nat.ofDigitChars 10 l 0) h
  simpa [digits, Nat.ofDigitChars_toDigits] using this

theorem digits_digit {n : Nat} {c : Char} (h : c ∈ digits n) : c.isDigit = true := Nat.isDigit_of_mem_toDigits (by decide) (by decide) h

theorem digits_all (n : Nat) : (digits n).all Char.isDigit = true := List.all_eq_true.mpr fun _ h => digits_digit h

theorem digits_not {n : Nat} {c : Char} (hc : c.isDigit = false) : c ∉ digits n := fun h => by rw [digits_digit h] at hc; cases hc

theorem digit_ident {c : Char} (h : c.isDigit = true) : identChar c = true := by
  unfold identChar Char.isAlphanum
  simp [h]

theorem ident_name {c : Char} (h : identChar c = true) : nameChar c = true := by
  unfold identChar at h
  unfold nameChar
  simp only [Bool.or_eq_true, beq_iff_eq] at h ⊢
  rcases h with h | h
  · exact .inl (.inl (.inl h))
  · exact .inr h

theorem ident_not {c : Char} (hc : identChar c = false) {t : Text} (h : t.all identChar = true) : c ∉ t := fun hm => by
  rw [List.all_eq_true.mp h c hm] at hc; cases hc

/-! ## `join` -/

theorem splitChar_join {c : Char} {l : List Text} (hne : l ≠ []) (h : ∀ t ∈ l, c ∉ t) : splitChar c (join c l) = l := by
  induction l with
  | nil => exact absurd rfl hne
  | cons t l ih =>
    cases l with
    | nil => exact splitChar_noSep (h t List.mem_cons_self)
    | cons u l =>
      unfold join
      rw [splitChar_append (h t List.mem_cons_self), ih (by simp) (fun x hx => h x (List.mem_cons_of_mem _ hx))]

theorem join_inj {c : Char} {l l' : List Text} (hne : l ≠ []) (hne' : l' ≠ []) (h : ∀ t ∈ l, c ∉ t) (h' : ∀ t ∈ l', c ∉ t) (e : join c l = join c l') : l = l' := by
  rw [← splitChar_join hne h, ← splitChar_join hne' h', e]

theorem join_mem {c d : Char} {l : List Text} (h : d ∈ join c l) : d = c ∨ ∃ t ∈ l, d ∈ t := by
  induction l with
  | nil => cases h
  | cons t l ih =>
    cases l with
    | nil => exact .inr ⟨t, List.mem_cons_self, h⟩
    | cons u l =>
      unfold join at h
      rcases List.mem_append.mp h with h | h
      · exact .inr ⟨t, List.mem_cons_self, h⟩
      · rcases List.mem_cons.mp h with h | h
        · exact .inl h
        · rcases ih h with h | ⟨x, hx, h⟩
          · exact .inl h
          · exact .inr ⟨x, List.mem_cons_of_mem _ hx, h⟩

theorem splitChar_prefix {c : Char} {a q x : Text} {xs : List Text} (ha : c ∉ a) (h : splitChar c q = x :: xs) : splitChar c (a ++ q) = (a ++ x) :: xs := by
  induction a with
  | nil => exact h
  | cons y a ih =>
    simp only [List.mem_cons, not_or] at ha
    rw [List.cons_append]
    unfold splitChar
    rw [if_neg (fun e => ha.1 e.symm), ih ha.2]
    rfl

/-! ## Names -/

theorem slash_not {t : Text} (h : t.all nameChar = true) : '/' ∉ t := fun hm => by
  have := List.all_eq_true.mp h '/' hm
  exact absurd this (by decide)

theorem isQName_name {t : Text} (hne : t ≠ []) (h : t.all nameChar = true) : isQName t = true := by
  unfold isQName
  rw [splitChar_noSep (slash_not h)]
  cases t with
  | nil => exact absurd rfl hne
  | cons c t => simpa using h

theorem isQName_prefix {a q : Text} (ha : a.all nameChar = true) (hq : isQName q = true) : isQName (a ++ q) = true := by
  unfold isQName at hq ⊢
  cases hs : splitChar '/' q with
  | nil => exact absurd hs (Construct.splitChar_ne_nil _ _)
  | cons x xs =>
    rw [splitChar_prefix (slash_not ha) hs]
    rw [hs, List.all_cons, Bool.and_eq_true] at hq
    rw [List.all_cons, Bool.and_eq_true]
    refine ⟨?_, hq.2⟩
    have h1 := hq.1
    simp only [Bool.and_eq_true, Bool.not_eq_true'] at h1 ⊢
    refine ⟨?_, by rw [List.all_append, ha, h1.2]; rfl⟩
    cases x with
    | nil => simp at h1
    | cons c x => cases a <;> rfl

theorem intoName_chars (s : Text) : (intoName s).all nameChar = true := by
  rw [List.all_eq_true]
  intro c hc
  obtain ⟨d, hd, h⟩ := List.mem_flatMap.mp hc
  by_cases hn : nameChar d = true
  · rw [if_pos hn] at h
    rw [List.mem_singleton.mp h]; exact hn
  · rw [if_neg hn] at h
    rw [(List.mem_replicate.mp h).2]; decide

theorem intoName_ne {s : Text} (h : s ≠ []) : intoName s ≠ [] := by
  cases s with
  | nil => exact absurd rfl h
  | cons c s =>
    intro e
    unfold intoName at e
    rw [List.flatMap_cons, List.append_eq_nil_iff] at e
    by_cases hn : nameChar c = true
    · rw [if_pos hn] at e; cases e.1
    · rw [if_neg hn] at e
      have h2 : c.utf8Size = 0 := by simpa using e.1
      have := Char.utf8Size_pos c
      omega

theorem intoQName_isQName (t : Text) : isQName (intoQName t) = true := by
  unfold intoQName
  simp only
  split
  · decide
  · rename_i hr
    generalize hl : (((splitChar '/' t).filter fun s => !s.isEmpty).map intoName) = l at hr
    have hne : l ≠ [] := by rintro rfl; exact hr rfl
    have hall : ∀ x ∈ l, x ≠ [] ∧ x.all nameChar = true := by
      intro x hx
      rw [← hl] at hx
      obtain ⟨s, hs, rfl⟩ := List.mem_map.mp hx
      have := (List.mem_filter.mp hs).2
      exact ⟨intoName_ne (by rintro rfl; simp at this), intoName_chars s⟩
    unfold isQName
    rw [splitChar_join hne fun x hx => slash_not (hall x hx).2, List.all_eq_true]
    intro x hx
    obtain ⟨h1, h2⟩ := hall x hx
    rw [h2]
    cases x with
    | nil => exact absurd rfl h1
    | cons _ _ => rfl

/-! ## Versions -/

theorem ident_chars {v : Version} (hv : Parsed v) {i : Ident} (hi : i ∈ v.pre) : (identText i).all identChar = true := by
  cases i with
  | num n => exact List.all_eq_true.mpr fun c hc => digit_ident (digits_digit hc)
  | str s => exact (hv.pre s hi).2.1

theorem ident_inj {v w : Version} (hv : Parsed v) (hw : Parsed w) {i j : Ident} (hi : i ∈ v.pre) (hj : j ∈ w.pre) (h : identText i = identText j) : i = j := by
  cases i with
  | num n =>
    cases j with
    | num m => rw [digits_inj h]
    | str s =>
      have := (hw.pre s hj).2.2
      rw [show s.toList = digits n from h.symm, digits_all] at this; cases this
  | str s =>
    cases j with
    | num m =>
      have := (hv.pre s hi).2.2
      rw [show s.toList = digits m from h, digits_all] at this; cases this
    | str t => rw [String.toList_injective h]

theorem map_inj_on {α β : Type} {f : α → β} {l l' : List α} (hf : ∀ x ∈ l, ∀ y ∈ l', f x = f y → x = y) (h : l.map f = l'.map f) : l = l' := by
  induction l generalizing l' with
  | nil => cases l' with | nil => rfl | cons _ _ => cases h
  | cons x l ih =>
    cases l' with
    | nil => cases h
    | cons y l' =>
      rw [List.map_cons, List.map_cons, List.cons.injEq] at h
      rw [hf x List.mem_cons_self y List.mem_cons_self h.1, ih (fun a ha b hb => hf a (List.mem_cons_of_mem _ ha) b (List.mem_cons_of_mem _ hb)) h.2]

/-- The part of a version's text for the pre-release -/
def preText (v : Version) : Text := if v.pre = [] then [] else '-' :: join '.' (v.pre.map identText)
/-- The part of a version's text for the build -/
def buildText (v : Version) : Text := if v.build = [] then [] else '+' :: join '.' (v.build.map String.toList)

theorem preText_chars {v : Version} (hv : Parsed v) {c : Char} (h : c ∈ preText v) : c = '.' ∨ identChar c = true := by
  unfold preText at h
  by_cases hp : v.pre = []
  · rw [if_pos hp] at h; cases h
  · rw [if_neg hp] at h
    rcases List.mem_cons.mp h with rfl | h
    · exact .inr (by decide)
    · rcases join_mem h with rfl | ⟨t, ht, h⟩
      · exact .inl rfl
      · obtain ⟨i, hi, rfl⟩ := List.mem_map.mp ht
        exact .inr (List.all_eq_true.mp (ident_chars hv hi) c h)

theorem buildText_chars {v : Version} (hv : Parsed v) {c : Char} (h : c ∈ buildText v) : c = '.' ∨ c = '+' ∨ identChar c = true := by
  unfold buildText at h
  by_cases hp : v.build = []
  · rw [if_pos hp] at h; cases h
  · rw [if_neg hp] at h
    rcases List.mem_cons.mp h with rfl | h
    · exact .inr (.inl rfl)
    · rcases join_mem h with rfl | ⟨t, ht, h⟩
      · exact .inl rfl
      · obtain ⟨i, hi, rfl⟩ := List.mem_map.mp ht
        exact .inr (.inr (List.all_eq_true.mp (hv.build i hi).2 c h))

theorem versionText_eq (v : Version) : versionText v = digits v.major ++ '.' :: (digits v.minor ++ '.' :: (digits v.patch ++ (preText v ++ buildText v))) := rfl

theorem preText_inj {v w : Version} (hv : Parsed v) (hw : Parsed w) (h : preText v = preText w) : v.pre = w.pre := by
  unfold preText at h
  by_cases h1 : v.pre = []
  · by_cases h2 : w.pre = []
    · rw [h1, h2]
    · rw [if_pos h1, if_neg h2] at h; cases h
  · by_cases h2 : w.pre = []
    · rw [if_neg h1, if_pos h2] at h; cases h
    · rw [if_neg h1, if_neg h2, List.cons.injEq] at h
      have hd : ∀ u : Version, Parsed u → ∀ t ∈ u.pre.map identText, '.' ∉ t := by
        intro u hu t ht
        obtain ⟨i, hi, rfl⟩ := List.mem_map.mp ht
        exact ident_not (by decide) (ident_chars hu hi)
      exact map_inj_on (fun i hi j hj e => ident_inj hv hw hi hj e) (join_inj (by simpa using h1) (by simpa using h2) (hd v hv) (hd w hw) h.2)

theorem buildText_inj {v w : Version} (hv : Parsed v) (hw : Parsed w) (h : buildText v = buildText w) : v.build = w.build := by
  unfold buildText at h
  by_cases h1 : v.build = []
  · by_cases h2 : w.build = []
    · rw [h1, h2]
    · rw [if_pos h1, if_neg h2] at h; cases h
  · by_cases h2 : w.build = []
    · rw [if_neg h1, if_pos h2] at h; cases h
    · rw [if_neg h1, if_neg h2, List.cons.injEq] at h
      have hd : ∀ u : Version, Parsed u → ∀ t ∈ u.build.map String.toList, '.' ∉ t := by
        intro u hu t ht
        obtain ⟨i, hi, rfl⟩ := List.mem_map.mp ht
        exact ident_not (by decide) (hu.build i hi).2
      exact map_inj_on (fun i _ j _ e => String.toList_injective e) (join_inj (by simpa using h1) (by simpa using h2) (hd v hv) (hd w hw) h.2)

theorem versionText_inj {v w : Version} (hv : Parsed v) (hw : Parsed w) (h : versionText v = versionText w) : v = w := by
  rw [versionText_eq, versionText_eq] at h
  obtain ⟨e1, h⟩ := cut (digits_not (by decide)) (digits_not (by decide)) h
  obtain ⟨e2, h⟩ := cut (digits_not (by decide)) (digits_not (by decide)) h
  have hhead : ∀ u : Version, ∀ c, (preText u ++ buildText u).head? = some c → c.isDigit = false := by
    intro u c hc
    unfold preText buildText at hc
    by_cases h1 : u.pre = []
    · by_cases h2 : u.build = []
      · simp [h1, h2] at hc
      · rw [if_pos h1, if_neg h2] at hc
        cases hc; decide
    · rw [if_neg h1] at hc
      cases hc; decide
  obtain ⟨e3, h⟩ := cutWhile (digits_all _) (digits_all _) (hhead v) (hhead w) h
  have hplus : ∀ u : Version, Parsed u → (preText u).all (fun c => c != '+') = true := by
    intro u hu
    rw [List.all_eq_true]
    intro c hc
    rcases preText_chars hu hc with rfl | hc
    · decide
    · rw [bne_iff_ne]
      rintro rfl
      exact absurd hc (by decide)
  have hbh : ∀ u : Version, ∀ c, (buildText u).head? = some c → (c != '+') = false := by
    intro u c hc
    unfold buildText at hc
    by_cases h2 : u.build = []
    · rw [if_pos h2] at hc; cases hc
    · rw [if_neg h2] at hc; cases hc; decide
  obtain ⟨e4, e5⟩ := cutWhile (hplus v hv) (hplus w hw) (hbh v) (hbh w) h
  have q1 := digits_inj e1
  have q2 := digits_inj e2
  have q3 := digits_inj e3
  have q4 := preText_inj hv hw e4
  have q5 := buildText_inj hv hw e5
  cases v; cases w
  simp only at q1 q2 q3 q4 q5
  rw [q1, q2, q3, q4, q5]

theorem versionText_colon {v : Version} (hv : Parsed v) : ':' ∉ versionText v := by
  rw [versionText_eq]
  intro h
  simp only [List.mem_append, List.mem_cons] at h
  rcases h with h | h | h | h | h | h | h
  · exact digits_not (by decide) h
  · exact absurd h (by decide)
  · exact digits_not (by decide) h
  · exact absurd h (by decide)
  · exact digits_not (by decide) h
  · rcases preText_chars hv h with h | h
    · exact absurd h (by decide)
    · exact absurd h (by decide)
  · rcases buildText_chars hv h with h | h | h
    · exact absurd h (by decide)
    · exact absurd h (by decide)
    · exact absurd h (by decide)

theorem under_inj {l l' : List Text} (h : ∀ t ∈ l, '_' ∉ t) (h' : ∀ t ∈ l', '_' ∉ t)
    (e : (l.flatMap fun t => '_' :: t) = l'.flatMap fun t => '_' :: t) : l = l' := by
  induction l generalizing l' with
  | nil => cases l' with | nil => rfl | cons _ _ => cases e
  | cons t l ih =>
    cases l' with
    | nil => cases e
    | cons u l' =>
      rw [List.flatMap_cons, List.flatMap_cons, List.cons_append, List.cons_append, List.cons.injEq] at e
      have hh : ∀ k : List Text, ∀ c, (k.flatMap fun t => '_' :: t).head? = some c → (c != '_') = false := by
        intro k c hc
        cases k with
        | nil => cases hc
        | cons x k => rw [List.flatMap_cons, List.cons_append, List.head?_cons] at hc; cases hc; decide
      have ha : ∀ x : Text, '_' ∉ x → x.all (fun c => c != '_') = true := by
        intro x hx
        rw [List.all_eq_true]
        intro c hc
        rw [bne_iff_ne]
        rintro rfl
        exact hx hc
      obtain ⟨e1, e2⟩ := cutWhile (ha t (h t List.mem_cons_self)) (ha u (h' u List.mem_cons_self)) (hh l) (hh l') e.2
      rw [e1, ih (fun x hx => h x (List.mem_cons_of_mem _ hx)) (fun x hx => h' x (List.mem_cons_of_mem _ hx)) e2]

end Pulumi.Providers
