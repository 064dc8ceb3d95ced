import Verif.Rename.Lemmas
/-!
# The fields of URNs, and references to providers
-/
namespace Pulumi.Rename
open Pulumi.Urn

/-- The qualified type of a resource whose parent has a type, or of one without. -/
def qualified (parentType baseType : Text) : Text := if parentType = [] then baseType else parentType ++ '$' :: baseType

theorem newURN_text (s p pt bt n : Text) : newURN s p pt bt n = urnText s p (qualified pt bt) n := by
  rw [urnText_eq]
  unfold newURN qualified
  by_cases h : pt = [] <;> simp [h]

/-- The stack, project, qualified type and name a URN was made of can be read back from it exactly if none of them contains
the separator and none but the name ends with a colon. -/
theorem urn_fields_read_back (s p pt bt n : Text) :
    (stackOf (newURN s p pt bt n) = some s ∧ projectOf (newURN s p pt bt n) = some p ∧
      qualifiedType (newURN s p pt bt n) = some (qualified pt bt) ∧ nameOf (newURN s p pt bt n) = some n) ↔
    CleanField s ∧ CleanField p ∧ CleanField (qualified pt bt) ∧ ¬ HasSep n := by
  rw [newURN_text]
  generalize qualified pt bt = t
  have hpart : ∀ i, part (urnText s p t n) i = (splitSep (s ++ sep ++ (p ++ sep ++ (t ++ sep ++ n))))[i]? := by
    intro i; unfold part; rw [urnName_text]
  unfold stackOf projectOf qualifiedType nameOf
  rw [hpart, hpart, hpart, hpart]
  constructor
  · rintro ⟨h0, h1, h2, h3⟩
    have hp := pieces_split (s ++ sep ++ (p ++ sep ++ (t ++ sep ++ n)))
    generalize splitSep (s ++ sep ++ (p ++ sep ++ (t ++ sep ++ n))) = l at *
    have hlt : 3 < l.length := by
      rcases Nat.lt_or_ge 3 l.length with h | h
      · exact h
      · rw [List.getElem?_eq_none h] at h3; cases h3
    have hd : ∀ (i : Nat) (x : Text), i < 3 → l[i]? = some x → x ∈ l.dropLast := by
      intro i x hi hx
      refine List.mem_of_getElem? (i := i) ?_
      rw [List.getElem?_dropLast, if_pos (by omega)]
      exact hx
    exact ⟨hp.clean s (hd 0 s (by omega) h0), hp.clean p (hd 1 p (by omega) h1), hp.clean t (hd 2 t (by omega) h2),
      hp.noSep n (List.mem_of_getElem? h3)⟩
  · rintro ⟨h0, h1, h2, h3⟩
    rw [split_fields h0 h1 h2 h3]
    exact ⟨rfl, rfl, rfl, rfl⟩

example : CleanField "dev".toList ∧ CleanField "shop".toList ∧
    CleanField (qualified "my:mod:Comp".toList "aws:s3/bucket:Bucket".toList) ∧ ¬ HasSep "images".toList := by
  have h := (urn_fields_read_back "dev".toList "shop".toList "my:mod:Comp".toList "aws:s3/bucket:Bucket".toList
    "images".toList).1 (by decide +kernel)
  exact h

/-- The resource's own type can be read back from its URN if in addition it has no `$`, whatever the parent's. -/
theorem urn_type_read_back {s p pt bt n : Text} (hs : CleanField s) (hp : CleanField p) (ht : CleanField (qualified pt bt))
    (hn : ¬ HasSep n) : typeOf (newURN s p pt bt n) = some bt ↔ '$' ∉ bt := by
  have hq := ((urn_fields_read_back s p pt bt n).2 ⟨hs, hp, ht, hn⟩).2.2.1
  unfold qualifiedType at hq
  unfold typeOf
  rw [hq, Option.map_some, Option.some.injEq]
  constructor
  · intro h
    have hne : ∀ q : Text, ∀ x ∈ splitChar '$' q, '$' ∉ x := by
      intro q
      induction q with
      | nil => intro x hx; simp [splitChar] at hx; subst hx; simp
      | cons c q ih =>
        intro x hx
        rw [splitChar] at hx
        split at hx
        · rcases List.mem_cons.1 hx with rfl | hx
          · simp
          · exact ih x hx
        · rename_i hc
          cases hq : splitChar '$' q with
          | nil => rw [hq] at hx; simp [consHead] at hx; subst hx; simp; exact fun h => hc h.symm
          | cons y ys =>
            rw [hq] at hx ih
            simp only [consHead, List.mem_cons] at hx
            rcases hx with rfl | hx
            · have := ih y (by simp)
              simp only [List.mem_cons, not_or]
              exact ⟨fun h => hc h.symm, this⟩
            · exact ih x (by simp [hx])
    have hnn : splitChar '$' (qualified pt bt) ≠ [] := by
      cases qualified pt bt with
      | nil => simp [splitChar]
      | cons c q => rw [splitChar]; split; · simp
                    · exact consHead_ne _ _
    have hl : (splitChar '$' (qualified pt bt)).getLastD [] ∈ splitChar '$' (qualified pt bt) := by
      rw [List.getLastD_eq_getLast?, List.getLast?_eq_some_getLast hnn]
      exact List.getLast_mem hnn
    rw [h] at hl
    exact hne _ _ hl
  · intro h
    have hlast : ∀ a : Text, splitChar '$' (a ++ '$' :: bt) ≠ [] ∧ (splitChar '$' (a ++ '$' :: bt)).getLastD [] = bt := by
      intro a
      induction a with
      | nil =>
        simp only [List.nil_append]
        rw [splitChar, if_pos rfl, splitChar_noSep h]
        simp
      | cons c a ih =>
        rw [List.cons_append, splitChar]
        split
        · refine ⟨by simp, ?_⟩
          rw [List.getLastD_eq_getLast?] at ih ⊢
          rw [List.getLast?_cons_of_ne_nil ih.1]
          exact ih.2
        · refine ⟨consHead_ne _ _, ?_⟩
          cases hq : splitChar '$' (a ++ '$' :: bt) with
          | nil => exact absurd hq ih.1
          | cons y ys =>
            have := ih.2
            rw [hq] at this
            cases ys with
            | nil =>
              exfalso
              -- there are at least two pieces
              have h2 : ∀ a : Text, 2 ≤ (splitChar '$' (a ++ '$' :: bt)).length := by
                intro a
                induction a with
                | nil => simp only [List.nil_append]; rw [splitChar, if_pos rfl, splitChar_noSep h]; simp
                | cons c a ih =>
                  rw [List.cons_append, splitChar]
                  split
                  · simp; omega
                  · cases hx : splitChar '$' (a ++ '$' :: bt) with
                    | nil => rw [hx] at ih; simp at ih
                    | cons y ys => rw [hx] at ih; simpa [consHead] using ih
              have := h2 a
              rw [hq] at this
              simp at this
            | cons z zs => simpa [consHead] using this
    unfold qualified
    split
    · rw [splitChar_noSep h]; rfl
    · exact (hlast pt).2

example : typeOf (newURN "dev".toList "shop".toList "a$b".toList "aws:s3/bucket:Bucket".toList "images".toList) =
    some "aws:s3/bucket:Bucket".toList := by decide +kernel

/-- A URN that passes the check of its form, and whose stack is neither empty nor starts with a colon, is made of four fields
that can be read back; and every URN made of such fields passes. -/
theorem valid_urn_iff (u : Text) : (isValid u = true ∧ ¬ "urn:pulumi::".toList <+: u) ↔
    ∃ s p t n, Separable s p t n ∧ u = urnText s p t n := by
  have e : "urn:pulumi::".toList = urnPrefix ++ [':'] := by decide
  rw [e]
  constructor
  · rintro ⟨h1, h2⟩; exact valid_fields h1 h2
  · rintro ⟨s, p, t, n, h, rfl⟩; exact ⟨isValid_text h, text_not_odd h⟩

example : ∃ s p t n, Separable s p t n ∧ "urn:pulumi:dev::shop::a:b:C::x".toList = urnText s p t n :=
  (valid_urn_iff _).1 (by decide +kernel)

/-- No two choices of such fields make the same URN. -/
theorem urn_determines_fields {s p t n s' p' t' n' : Text} (h : Separable s p t n) (h' : Separable s' p' t' n')
    (e : urnText s p t n = urnText s' p' t' n') : s = s' ∧ p = p' ∧ t = t' ∧ n = n' := text_inj h h' e

/-- The check of a URN's form accepts one without a name, and reading the name of it crashes. -/
theorem valid_urn_may_crash : ∃ u : Text, isValid u = true ∧ nameOf u = none ∧ stackOf u = some ":a".toList :=
  ⟨"urn:pulumi::a::b::c".toList, by decide +kernel⟩

/-- Names with the separator, which programs may choose, make URNs that fail the check, and two of them that differ are read
as the same name. -/
theorem names_may_be_confused : ∃ s p t n n' : Text, n ≠ n' ∧ isValid (newURN s p [] t n) = false ∧
    nameOf (newURN s p [] t n) = nameOf (newURN s p [] t n') ∧ nameOf (newURN s p [] t n) ≠ none :=
  ⟨"dev".toList, "shop".toList, "a:b:C".toList, "x::1".toList, "x::2".toList, by decide +kernel⟩

/-- Renaming a resource gives the URN with the new name in place of the old one, and nothing else changed. -/
theorem rename_replaces_name {s p t n : Text} (h : Separable s p t n) (m : Text) :
    rename (urnText s p t n) m = some (urnText s p t m) := by
  unfold rename stackOf projectOf qualifiedType
  rw [part_text h, part_text h, part_text h]
  simp only [List.getElem?_cons_succ, List.getElem?_cons_zero]
  rw [newURN_eq]

/-! ## References to providers -/

/-- A reference to a provider is read back as it was written exactly if its URN is that of a provider and its ID does not
contain the separator or start with a colon. -/
theorem reference_round_trip (urn id : Text) (hv : validateURN urn = some true) :
    parseReference (refString urn id) = some (some (urn, id)) ↔ CleanName id := by
  have hne : urn ≠ [] := by rintro rfl; exact absurd hv (by decide)
  have he : refString urn id = urn ++ sep ++ id := by
    unfold refString; rw [if_neg (fun h => hne h.1)]
  rw [he]
  constructor
  · intro h
    unfold parseReference at h
    cases hr : rfindSep? (urn ++ sep ++ id) with
    | none => rw [hr] at h; simp at h
    | some i =>
      rw [hr] at h
      simp only at h
      have hi : i = urn.length := by
        split at h
        · cases h
        · simp at h
        · simp only [Option.some.injEq, Prod.mk.injEq] at h
          have hl := congrArg List.length h.1
          have hat := congrArg List.length (rfindSep_at hr)
          simp only [List.length_take, List.length_append, List.length_drop] at hl hat
          simp only [sep, List.length_cons, List.length_nil] at hl hat
          omega
      subst hi
      constructor
      · rintro ⟨a, b, hab⟩
        rw [sep_eq] at hab
        subst hab
        have : rfindSep? ((urn ++ sep ++ a) ++ sep ++ b) = some urn.length := by rw [← hr]; simp
        have := rfindSep_max this
        simp only [sep, List.length_append, List.length_cons, List.length_nil] at this
        omega
      · rintro a rfl
        have : rfindSep? ((urn ++ [':']) ++ sep ++ a) = some urn.length := by
          rw [← hr]; simp [sep]
        have := rfindSep_max this
        simp only [List.length_append, List.length_cons, List.length_nil] at this
        omega
  · intro h
    unfold parseReference
    rw [rfindSep_append h]
    simp only
    rw [show (urn ++ sep ++ id).take urn.length = urn by simp,
      show (urn ++ sep ++ id).drop (urn.length + 2) = id by
        rw [show urn.length + 2 = (urn ++ sep).length by simp [sep], List.drop_left]]
    rw [hv]

example : validateURN "urn:pulumi:dev::shop::pulumi:providers:aws::default".toList = some true ∧
    parseReference (refString "urn:pulumi:dev::shop::pulumi:providers:aws::default".toList "04da6b54-80e4".toList) =
      some (some ("urn:pulumi:dev::shop::pulumi:providers:aws::default".toList, "04da6b54-80e4".toList)) := by
  decide +kernel

/-- Whatever is read as a reference names a provider's URN, and writing it gives back what was read. -/
theorem reference_read_then_written {s urn id : Text} (h : parseReference s = some (some (urn, id))) :
    refString urn id = s ∧ validateURN urn = some true ∧ CleanName id := by
  have hx := h
  unfold parseReference at h
  cases hr : rfindSep? s with
  | none => rw [hr] at h; simp at h
  | some i =>
    rw [hr] at h
    simp only at h
    split at h
    · cases h
    · simp at h
    · rename_i hv
      simp only [Option.some.injEq, Prod.mk.injEq] at h
      obtain ⟨rfl, rfl⟩ := h
      have hs := rfindSep_at hr
      have hne : s.take i ≠ [] := by intro e; rw [e] at hv; exact absurd hv (by decide)
      have he : refString (s.take i) (s.drop (i + 2)) = s := by
        unfold refString; rw [if_neg (fun h => hne h.1)]; exact hs.symm
      refine ⟨he, hv, (reference_round_trip _ _ hv).1 ?_⟩
      rw [he]; exact hx

example : ∃ urn id, parseReference "urn:pulumi:dev::shop::pulumi:providers:aws::default::04da".toList = some (some (urn, id)) :=
  ⟨"urn:pulumi:dev::shop::pulumi:providers:aws::default".toList, "04da".toList, by decide +kernel⟩

/-- The URN of a provider is one of a type in the module `pulumi:providers`, whatever it is qualified with. -/
theorem provider_urn_iff {s p pt n : Text} {name : Text} (hs : Separable s p (qualified pt ("pulumi:providers:".toList ++ name)) n)
    (hd : '$' ∉ name) : validateURN (newURN s p pt ("pulumi:providers:".toList ++ name) n) = some true ↔ name ≠ [] := by
  have hty := (urn_type_read_back hs.cleanStack hs.cleanProject hs.cleanType hs.cleanName).2
    (show '$' ∉ "pulumi:providers:".toList ++ name by
      rw [List.mem_append, not_or]; exact ⟨by decide, hd⟩)
  unfold validateURN
  rw [hty]
  rw [newURN_text, isValid_text hs]
  have hsp : splitChar ':' ("pulumi:providers:".toList ++ name) =
      "pulumi".toList :: "providers".toList :: splitChar ':' name := by
    rw [show "pulumi:providers:".toList ++ name = "pulumi".toList ++ ':' :: ("providers".toList ++ ':' :: name) by
      rfl]
    rw [splitChar_append (by decide), splitChar_append (by decide)]
  have hnn : splitChar ':' name ≠ [] := by
    cases name with
    | nil => simp [splitChar]
    | cons c q => rw [splitChar]; split; · simp
                  · exact consHead_ne _ _
  cases hq : splitChar ':' name with
  | nil => exact absurd hq hnn
  | cons y ys =>
    rw [hq] at hsp
    simp only [Bool.not_true, Bool.false_eq_true, if_false, typeModule, typeName, hsp]
    rw [if_neg (by decide)]
    rw [show ("pulumi:providers:".toList ++ name).drop ("pulumi".toList.length + "providers".toList.length + 2) = name by rfl]
    simp

example : validateURN (newURN "dev".toList "shop".toList "a:b:C".toList "pulumi:providers:aws".toList "x".toList) = some true := by
  decide +kernel

end Pulumi.Rename
