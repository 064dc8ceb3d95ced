import Verif.Rename.Spec
import Verif.Urn.Lemmas
namespace Pulumi.Rename
open Pulumi.Urn
open Pulumi.Snapshot (State Provider Ref Env Snap OpType Intact Backed Provides)

theorem urnText_eq (s p t n : Text) : urnText s p t n = urnPrefix ++ (s ++ sep ++ (p ++ sep ++ (t ++ sep ++ n))) := by
  unfold urnText
  rw [prefix_eq, sep_eq]
  simp

theorem newURN_eq (s p q n : Text) : newURN s p [] q n = urnText s p q n := by
  rw [urnText_eq]; simp [newURN]

theorem prefix_isPrefix (x : Text) : urnPrefix.isPrefixOf (urnPrefix ++ x) = true := by
  rw [List.isPrefixOf_iff_prefix]; exact List.prefix_append _ _

theorem urnName_text (s p t n : Text) : urnName (urnText s p t n) = some (s ++ sep ++ (p ++ sep ++ (t ++ sep ++ n))) := by
  rw [urnText_eq]
  unfold urnName
  rw [if_pos (prefix_isPrefix _), List.drop_left]

/-! ## Pieces -/

theorem hasSep_append_left {a b : Text} (h : HasSep a) : HasSep (a ++ b) := by
  obtain ⟨x, y, rfl⟩ := h
  exact ⟨x, y ++ b, by simp⟩

theorem hasSep_append_right {a b : Text} (h : HasSep b) : HasSep (a ++ b) := by
  obtain ⟨x, y, rfl⟩ := h
  exact ⟨a ++ x, y, by simp⟩

/-- Putting pieces together again. -/
def joinSep : List Text → Text
  | [] => []
  | [p] => p
  | p :: q :: ps => p ++ sep ++ joinSep (q :: ps)

theorem consHead_ne (c : Char) (l : List Text) : consHead c l ≠ [] := by cases l <;> simp [consHead]

theorem splitSep_ne (s : Text) : splitSep s ≠ [] := by
  match s with
  | [] => simp [splitSep]
  | [c] => simp [splitSep]
  | c :: d :: s =>
    rw [splitSep]
    split
    · simp
    · exact consHead_ne _ _

theorem joinSep_consHead (c : Char) (l : List Text) (h : l ≠ []) : joinSep (consHead c l) = c :: joinSep l := by
  match l, h with
  | [p], _ => rfl
  | p :: q :: ps, _ => simp [consHead, joinSep]

theorem join_split (s : Text) : joinSep (splitSep s) = s := by
  match s with
  | [] => rfl
  | [c] => rfl
  | c :: d :: s =>
    rw [splitSep]
    split
    · rename_i h
      obtain ⟨rfl, rfl⟩ := h
      have hj := join_split s
      cases hs : splitSep s with
      | nil => exact absurd hs (splitSep_ne s)
      | cons p ps =>
        rw [hs] at hj
        simp [joinSep, sep, hj]
    · rw [joinSep_consHead _ _ (splitSep_ne _), join_split (d :: s)]

/-- What the pieces are like. -/
structure Pieces (l : List Text) : Prop where
  noSep : ∀ p ∈ l, ¬ HasSep p
  clean : ∀ p ∈ l.dropLast, CleanField p

/-- The first piece starts like the text. -/
theorem splitSep_head (d : Char) (s : Text) (h : ¬ (d = ':' ∧ s.head? = some ':')) :
    ∃ p ps, splitSep (d :: s) = (d :: p) :: ps := by
  match s with
  | [] => exact ⟨[], [], rfl⟩
  | e :: s =>
    rw [splitSep]
    rw [if_neg (by simpa using h)]
    cases hs : splitSep (e :: s) with
    | nil => exact absurd hs (splitSep_ne _)
    | cons p ps => exact ⟨p, ps, rfl⟩

theorem pieces_split (s : Text) : Pieces (splitSep s) := by
  match s with
  | [] =>
    refine ⟨fun p hp => ?_, by simp [splitSep]⟩
    simp only [splitSep, List.mem_singleton] at hp; subst hp
    rintro ⟨a, b, h⟩
    rw [sep_eq] at h
    have := congrArg List.length h
    simp [sep] at this
  | [c] =>
    refine ⟨fun p hp => ?_, by simp [splitSep]⟩
    simp only [splitSep, List.mem_singleton] at hp; subst hp
    rintro ⟨a, b, h⟩
    rw [sep_eq] at h
    have := congrArg List.length h
    simp [sep] at this
    omega
  | c :: d :: s =>
    rw [splitSep]
    split
    · have ih := pieces_split s
      constructor
      · intro p hp
        rcases List.mem_cons.1 hp with rfl | hp
        · rintro ⟨a, b, h⟩
          rw [sep_eq] at h
          have := congrArg List.length h
          simp [sep] at this
        · exact ih.noSep p hp
      · intro p hp
        rw [List.dropLast_cons_of_ne_nil (splitSep_ne s)] at hp
        rcases List.mem_cons.1 hp with rfl | hp
        · refine ⟨?_, by simp⟩
          rintro ⟨a, b, h⟩
          rw [sep_eq] at h
          have := congrArg List.length h
          simp [sep] at this
        · exact ih.clean p hp
    · rename_i hcd
      have ih := pieces_split (d :: s)
      have hj := join_split (d :: s)
      cases hs : splitSep (d :: s) with
      | nil => exact absurd hs (splitSep_ne _)
      | cons p ps =>
        rw [hs] at ih hj
        -- the first piece does not begin with a colon after a colon
        have hp0 : ¬ HasSep (c :: p) := by
          rw [hasSep_cons, not_or]
          refine ⟨?_, ih.noSep p (by simp)⟩
          rintro ⟨rfl, hh⟩
          cases p with
          | nil => simp at hh
          | cons e p =>
            simp only [List.head?_cons, Option.some.injEq] at hh
            subst hh
            have : d = ':' := by
              cases ps with
              | nil => simp [joinSep] at hj; exact hj.1.symm
              | cons q qs => simp [joinSep] at hj; exact hj.1.symm
            exact hcd ⟨rfl, this⟩
        constructor
        · intro q hq
          simp only [consHead, List.mem_cons] at hq
          rcases hq with rfl | hq
          · exact hp0
          · exact ih.noSep q (by simp [hq])
        · intro q hq
          cases ps with
          | nil => simp [consHead] at hq
          | cons r rs =>
            simp only [consHead, List.dropLast_cons_cons, List.mem_cons] at hq
            rcases hq with rfl | hq
            · refine ⟨hp0, ?_⟩
              intro a ha
              have hcl := (ih.clean p (by simp [List.dropLast_cons_cons])).2
              cases a with
              | nil =>
                simp only [List.nil_append, List.cons.injEq] at ha
                obtain ⟨rfl, rfl⟩ := ha
                simp [joinSep, sep] at hj
                exact hcd ⟨rfl, hj.1.symm⟩
              | cons e a =>
                simp only [List.cons_append, List.cons.injEq] at ha
                exact hcl a ha.2
            · exact ih.clean q (by simp [List.dropLast_cons_cons, hq])

/-! ## The fields of a URN -/

theorem split_fields {s p t n : Text} (hs : CleanField s) (hp : CleanField p) (ht : CleanField t) (hn : ¬ HasSep n) :
    splitSep (s ++ sep ++ (p ++ sep ++ (t ++ sep ++ n))) = [s, p, t, n] := by
  rw [splitSep_append hs, splitSep_append hp, splitSep_append ht, splitSep_noSep hn]

theorem part_text {s p t n : Text} (h : Separable s p t n) (i : Nat) :
    part (urnText s p t n) i = [s, p, t, n][i]? := by
  unfold part
  rw [urnName_text]
  simp only
  rw [split_fields h.cleanStack h.cleanProject h.cleanType h.cleanName]

theorem isValid_text {s p t n : Text} (h : Separable s p t n) : isValid (urnText s p t n) = true := by
  unfold isValid
  rw [urnText_eq, prefix_isPrefix, Bool.true_and, decide_eq_true_eq]
  rw [show urnPrefix ++ (s ++ sep ++ (p ++ sep ++ (t ++ sep ++ n))) = (urnPrefix ++ s) ++ sep ++ (p ++ sep ++ (t ++ sep ++ n))
    by simp]
  rw [split_fields (stack_field h.cleanStack h.named h.start) h.cleanProject h.cleanType h.cleanName]
  rfl

theorem text_inj {s p t n s' p' t' n' : Text} (h : Separable s p t n) (h' : Separable s' p' t' n')
    (e : urnText s p t n = urnText s' p' t' n') : s = s' ∧ p = p' ∧ t = t' ∧ n = n' := by
  have key : ∀ i : Nat, [s, p, t, n][i]? = [s', p', t', n'][i]? := by
    intro i; rw [← part_text h, ← part_text h', e]
  have h0 := key 0; have h1 := key 1; have h2 := key 2; have h3 := key 3
  simp at h0 h1 h2 h3
  exact ⟨h0, h1, h2, h3⟩

/-- Whether a type is that of a provider, as `validateURN` sees it. -/
def validType (q : Text) : Option Bool :=
  match typeModule ((splitChar '$' q).getLastD []) with
  | none => none
  | some m =>
    if m ≠ providersModule then some false
    else (typeName ((splitChar '$' q).getLastD [])).map (fun n => decide (n ≠ []))

theorem validate_text {s p t n : Text} (h : Separable s p t n) : validateURN (urnText s p t n) = validType t := by
  unfold validateURN validType typeOf
  rw [isValid_text h, part_text h]
  rfl

/-- A URN is valid, and does not have an empty or odd stack, exactly if it is made of separable fields. -/
theorem valid_fields {u : Text} (hv : isValid u = true) (hs : ¬ (urnPrefix ++ [':']) <+: u) :
    ∃ s p t n, Separable s p t n ∧ u = urnText s p t n := by
  unfold isValid at hv
  rw [Bool.and_eq_true, decide_eq_true_eq, List.isPrefixOf_iff_prefix] at hv
  obtain ⟨⟨r, rfl⟩, hl⟩ := hv
  have hj := join_split (urnPrefix ++ r)
  have hp := pieces_split (urnPrefix ++ r)
  match hsp : splitSep (urnPrefix ++ r), hl with
  | [a, p, t, n], _ =>
    rw [hsp] at hj hp
    simp only [joinSep] at hj
    -- the first piece begins with the prefix, as it is not cut short by a colon that follows it
    have hcut : ∃ s, a = urnPrefix ++ s := by
      rw [show a ++ sep ++ (p ++ sep ++ (t ++ sep ++ n)) = a ++ (sep ++ (p ++ sep ++ (t ++ sep ++ n))) by simp] at hj
      rcases List.append_eq_append_iff.1 hj with ⟨x, h1, h2⟩ | ⟨x, h1, h2⟩
      · -- the piece is shorter than the prefix: then a separator starts within the prefix
        cases x with
        | nil => exact ⟨[], by simpa using h1.symm⟩
        | cons c x =>
          exfalso
          cases x with
          | nil =>
            simp [sep] at h2
            obtain ⟨rfl, h2⟩ := h2
            refine hs ⟨r.drop 1, ?_⟩
            rw [← h2]; simp
          | cons d x =>
            simp only [sep, List.cons_append, List.nil_append, List.cons.injEq] at h2
            obtain ⟨rfl, rfl, h2⟩ := h2
            have : HasSep urnPrefix := ⟨a, x, by rw [h1, sep_eq]; simp [sep]⟩
            exact not_hasSep_iff.2 (by decide) this
      · exact ⟨x, h1⟩
    obtain ⟨s, rfl⟩ := hcut
    have hcl : CleanField (urnPrefix ++ s) := hp.clean _ (by simp)
    refine ⟨s, p, t, n, ⟨?_, ?_, ⟨?_, ?_⟩, hp.clean p (by simp), hp.clean t (by simp), hp.noSep n (by simp)⟩, ?_⟩
    · rintro rfl
      exact hcl.2 ['u', 'r', 'n', ':', 'p', 'u', 'l', 'u', 'm', 'i'] (by decide)
    · rintro x rfl
      exact hcl.1 ⟨['u', 'r', 'n', ':', 'p', 'u', 'l', 'u', 'm', 'i'], x, by rw [sep_eq]; simp [urnPrefix, sep]⟩
    · intro hh; exact hcl.1 (hasSep_append_right hh)
    · intro x hx; exact hcl.2 (urnPrefix ++ x) (by rw [hx]; simp)
    · rw [urnText_eq, ← hj]; simp

theorem text_not_odd {s p t n : Text} (h : Separable s p t n) : ¬ (urnPrefix ++ [':']) <+: urnText s p t n := by
  rintro ⟨x, hx⟩
  rw [urnText_eq, List.append_assoc] at hx
  have := List.append_cancel_left hx
  cases s with
  | nil => exact h.named rfl
  | cons c s =>
    simp only [List.cons_append, List.nil_append, List.cons.injEq] at this
    exact h.start s (by rw [← this.1])

/-! ## References -/

theorem rfindSep_max {a b : Text} {i : Nat} (h : rfindSep? (a ++ sep ++ b) = some i) : a.length ≤ i := by
  induction a generalizing i with
  | nil => simp
  | cons c a ih =>
    simp only [List.cons_append, rfindSep?] at h
    cases hr : rfindSep? (a ++ sep ++ b) with
    | none =>
      -- there is a separator
      exfalso
      clear ih h
      induction a with
      | nil =>
        simp only [sep, List.nil_append, List.cons_append, rfindSep?] at hr
        cases hb : rfindSep? b <;> simp [hb] at hr
        split at hr <;> simp_all
      | cons d a ih2 =>
        simp only [List.cons_append, rfindSep?] at hr
        cases h2 : rfindSep? (a ++ sep ++ b) with
        | none => exact ih2 h2
        | some j => rw [h2] at hr; simp at hr
    | some j =>
      rw [hr] at h
      simp only [Option.some.injEq] at h
      have := ih hr
      simp only [List.length_cons]; omega

theorem rfindSep_at {s : Text} {i : Nat} (h : rfindSep? s = some i) : s = s.take i ++ sep ++ s.drop (i + 2) := by
  induction s generalizing i with
  | nil => simp [rfindSep?] at h
  | cons c s ih =>
    simp only [rfindSep?] at h
    cases hr : rfindSep? s with
    | some j =>
      rw [hr] at h
      simp only [Option.some.injEq] at h
      subst h
      have := ih hr
      simp only [List.take_succ_cons, List.cons_append, List.cons.injEq, true_and]
      exact this
    | none =>
      rw [hr] at h
      simp only at h
      split at h
      · rename_i hc
        simp only [Option.some.injEq] at h
        subst h
        obtain ⟨rfl, hh⟩ := hc
        cases s with
        | nil => simp at hh
        | cons d s => simp at hh; subst hh; rfl
      · cases h

end Pulumi.Rename
