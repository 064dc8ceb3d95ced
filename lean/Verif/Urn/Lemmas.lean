import Verif.Urn.Spec
/-! # Lemmas about splitting and joining URNs -/
namespace Pulumi.Urn

/-- Computable form of `¬ HasSep`. -/
def noSep : Text → Bool
  | [] => true
  | c :: s => !(c == ':' && s.head? == some ':') && noSep s

theorem sep_eq : "::".toList = sep := by decide
theorem prefix_eq : "urn:pulumi:".toList = urnPrefix := by decide

theorem hasSep_cons {c : Char} {s : Text} :
    HasSep (c :: s) ↔ (c = ':' ∧ s.head? = some ':') ∨ HasSep s := by
  constructor
  · rintro ⟨a, b, h⟩
    rw [sep_eq] at h
    cases a with
    | nil =>
      simp only [sep, List.nil_append, List.cons_append, List.cons.injEq] at h
      left
      exact ⟨h.1, by rw [h.2]; rfl⟩
    | cons x a =>
      simp only [List.cons_append, List.cons.injEq] at h
      right
      exact ⟨a, b, by rw [sep_eq]; exact h.2⟩
  · rintro (⟨rfl, h⟩ | ⟨a, b, h⟩)
    · cases s with
      | nil => simp at h
      | cons d s =>
        simp at h
        subst h
        exact ⟨[], s, by rw [sep_eq]; rfl⟩
    · exact ⟨c :: a, b, by rw [h]; rfl⟩

theorem not_hasSep_iff {s : Text} : ¬ HasSep s ↔ noSep s = true := by
  induction s with
  | nil =>
    constructor
    · intro _; rfl
    · rintro _ ⟨a, b, h⟩
      rw [sep_eq] at h
      cases a <;> simp [sep] at h
  | cons c s ih =>
    rw [hasSep_cons]
    simp only [noSep, Bool.and_eq_true, Bool.not_eq_true', ← ih, not_or]
    constructor
    · rintro ⟨h1, h2⟩
      refine ⟨?_, h2⟩
      rw [Bool.eq_false_iff]
      intro h
      simp only [Bool.and_eq_true, beq_iff_eq] at h
      exact h1 h
    · rintro ⟨h1, h2⟩
      refine ⟨?_, h2⟩
      rintro ⟨rfl, h⟩
      simp [h] at h1

theorem noSep_append {a b : Text} {c : Char} (ha : noSep a = true) (hb : noSep b = true) (hc : c ≠ ':') :
    noSep (a ++ c :: b) = true := by
  induction a with
  | nil =>
    have : (c == ':') = false := by simpa using hc
    simp [noSep, hb, hc]
  | cons x a ih =>
    simp only [noSep, Bool.and_eq_true] at ha
    simp only [List.cons_append, noSep, Bool.and_eq_true]
    refine ⟨?_, ih ha.2⟩
    cases a with
    | nil => simp [hc]
    | cons y a => simpa using ha.1

theorem qualify_clean {as : List Text} {t : Text} (has : ∀ x ∈ as, CleanType x) (ht : CleanType t) :
    CleanField (qualify as t) := by
  induction as with
  | nil => exact ht.1
  | cons a as ih =>
    have ih := ih (fun x hx => has x (List.mem_cons_of_mem _ hx))
    have ha := has a (List.mem_cons_self ..)
    refine ⟨?_, ?_⟩
    · rw [not_hasSep_iff]
      exact noSep_append (not_hasSep_iff.1 ha.1.1) (not_hasSep_iff.1 ih.1) (by decide)
    · intro y hy
      simp only [qualify] at hy
      rcases List.append_eq_append_iff.1 hy with ⟨z, h1, h2⟩ | ⟨z, h1, h2⟩
      · cases z with
        | nil => simp at h2
        | cons w z =>
          simp only [List.cons_append, List.cons.injEq] at h2
          exact ih.2 z h2.2
      · cases z with
        | nil => simp at h2
        | cons w z =>
          simp only [List.cons_append, List.cons.injEq] at h2
          simp at h2

theorem splitChar_noSep {sep : Char} {s : Text} (h : sep ∉ s) : splitChar sep s = [s] := by
  induction s with
  | nil => rfl
  | cons c s ih =>
    simp only [List.mem_cons, not_or] at h
    simp only [splitChar]
    rw [if_neg (fun hc => h.1 hc.symm), ih h.2]
    rfl

theorem splitChar_append {sep : Char} {a b : Text} (h : sep ∉ a) :
    splitChar sep (a ++ sep :: b) = a :: splitChar sep b := by
  induction a with
  | nil => simp [splitChar]
  | cons c s ih =>
    simp only [List.mem_cons, not_or] at h
    simp only [List.cons_append, splitChar]
    rw [if_neg (fun hc => h.1 hc.symm), ih h.2]
    rfl

theorem splitChar_qualify {as : List Text} {t : Text} (has : ∀ x ∈ as, '$' ∉ x) (ht : '$' ∉ t) :
    splitChar '$' (qualify as t) = as ++ [t] := by
  induction as with
  | nil => exact splitChar_noSep ht
  | cons a as ih =>
    simp only [qualify]
    rw [splitChar_append (has a (List.mem_cons_self ..)), ih (fun x hx => has x (List.mem_cons_of_mem _ hx))]
    rfl

theorem splitSep_noSep {s : Text} (h : ¬ HasSep s) : splitSep s = [s] := by
  induction s with
  | nil => rfl
  | cons c s ih =>
    rw [hasSep_cons, not_or] at h
    cases s with
    | nil => rfl
    | cons d s =>
      simp only [splitSep]
      rw [if_neg (fun hc => h.1 ⟨hc.1, by rw [hc.2]; rfl⟩), ih h.2]
      rfl

theorem splitSep_append {a b : Text} (h : CleanField a) : splitSep (a ++ sep ++ b) = a :: splitSep b := by
  induction a with
  | nil => simp [splitSep, sep]
  | cons c a ih =>
    have h1 := h.1
    rw [hasSep_cons, not_or] at h1
    have hcl : CleanField a ∨ a = [] := by
      cases a with
      | nil => exact Or.inr rfl
      | cons d a => exact Or.inl ⟨h1.2, fun z hz => h.2 (c :: z) (by rw [hz]; rfl)⟩
    have hc : CleanField a := by
      rcases hcl with h' | rfl
      · exact h'
      · exact ⟨by rw [not_hasSep_iff]; rfl, fun z hz => by simp at hz⟩
    have ih := ih hc
    cases a with
    | nil =>
      have : c ≠ ':' := fun hcc => h.2 [] (by rw [hcc]; rfl)
      simp only [sep, List.cons_append, List.nil_append, splitSep]
      rw [if_neg (fun hcc => this hcc.1)]
      simp [consHead]
    | cons d a =>
      simp only [List.cons_append, splitSep]
      rw [if_neg (fun hcc => h1.1 ⟨hcc.1, by rw [hcc.2]; rfl⟩)]
      simp only [List.cons_append] at ih
      rw [ih]
      rfl

theorem rfindSep_noSep {s : Text} (h : ¬ HasSep s) : rfindSep? s = none := by
  induction s with
  | nil => rfl
  | cons c s ih =>
    rw [hasSep_cons, not_or] at h
    simp only [rfindSep?, ih h.2]
    rw [if_neg h.1]

theorem rfindSep_append {a b : Text} (h : CleanName b) : rfindSep? (a ++ sep ++ b) = some a.length := by
  induction a with
  | nil =>
    have hb : ¬ HasSep (':' :: b) := by
      rw [hasSep_cons, not_or]
      refine ⟨?_, h.1⟩
      rintro ⟨_, hh⟩
      cases b with
      | nil => simp at hh
      | cons d b =>
        simp at hh
        exact h.2 b (by rw [hh])
    have h1 := rfindSep_noSep hb
    show rfindSep? (':' :: ':' :: b) = some 0
    rw [rfindSep?, h1]
    simp
  | cons c a ih =>
    simp only [List.cons_append, rfindSep?]
    simp only [ih]
    rfl

theorem beforeLastSep_append {a b : Text} (h : CleanName b) : beforeLastSep (a ++ sep ++ b) = a := by
  simp only [beforeLastSep, rfindSep_append h]
  rw [List.append_assoc, List.take_left]

theorem afterLastSep_append {a b : Text} (h : CleanName b) : afterLastSep (a ++ sep ++ b) = b := by
  simp only [afterLastSep, rfindSep_append h]
  have : a.length + 2 = (a ++ sep).length := by simp [sep]
  rw [this, List.drop_left]

theorem qualify_snoc (as : List Text) (t u : Text) : qualify (as ++ [t]) u = qualify as t ++ '$' :: u := by
  induction as with
  | nil => rfl
  | cons a as ih => simp [qualify, ih]

/-- Everything before the name of a URN. -/
def Urn.stem (u : Urn) : Text :=
  urnPrefix ++ u.stack ++ sep ++ u.project ++ sep ++ qualify u.ancestors u.type_

theorem text_eq (u : Urn) : u.text = u.stem ++ sep ++ u.name := by
  unfold Urn.text Urn.stem
  rw [sep_eq, prefix_eq]

theorem stack_field {s : Text} (h : CleanField s) (hne : s ≠ []) (hs : ∀ a : Text, s ≠ ':' :: a) :
    CleanField (urnPrefix ++ s) := by
  constructor
  · rw [not_hasSep_iff]
    have hs' := not_hasSep_iff.1 h.1
    cases s with
    | nil => exact absurd rfl hne
    | cons d s =>
      have hd : d ≠ ':' := fun hd => hs s (by rw [hd])
      have : urnPrefix ++ d :: s = (['u', 'r', 'n', ':', 'p', 'u', 'l', 'u', 'm', 'i', ':'] : Text) ++ d :: s := rfl
      rw [this]
      exact noSep_append (by decide) (by simp only [noSep, Bool.and_eq_true] at hs'; exact hs'.2) hd
  · intro a ha
    rcases List.append_eq_append_iff.1 ha with ⟨z, h1, h2⟩ | ⟨z, h1, h2⟩
    · exact h.2 z h2
    · cases s with
      | nil => exact hne rfl
      | cons d s =>
        cases z with
        | nil =>
          simp only [List.nil_append, List.cons.injEq] at h2
          exact hs s (by rw [← h2.1])
        | cons w z =>
          simp only [List.cons_append, List.cons.injEq] at h2
          simp at h2

theorem splitSep_text {u : Urn} (h : u.Clean) :
    splitSep u.text = [urnPrefix ++ u.stack, u.project, qualify u.ancestors u.type_, u.name] := by
  rw [text_eq]
  have e : u.stem ++ sep ++ u.name =
      (urnPrefix ++ u.stack) ++ sep ++ (u.project ++ sep ++ (qualify u.ancestors u.type_ ++ sep ++ u.name)) := by
    simp [Urn.stem]
  rw [e, splitSep_append (stack_field h.stack h.stack_ne h.stack_start), splitSep_append h.project,
    splitSep_append (qualify_clean h.ancestors h.type_), splitSep_noSep h.name.1]

theorem Urn.Clean.child {u : Urn} (h : u.Clean) {t n : Text} (ht : CleanType t) (hn : CleanName n) :
    (u.child t n).Clean where
  stack_ne := h.stack_ne
  stack := h.stack
  stack_start := h.stack_start
  project := h.project
  ancestors := by
    intro x hx
    simp only [Urn.child, List.mem_append, List.mem_singleton] at hx
    rcases hx with hx | rfl
    · exact h.ancestors x hx
    · exact h.type_
  type_ := ht
  name := hn

theorem createUrn_child (amb : Ambient) {u : Urn} (h : u.Clean) (t n : Text) (p s : Option Text) :
    createUrn amb n t (some u.text) p s = (u.child t n).text := by
  rw [text_eq, text_eq]
  simp only [createUrn, beforeLastSep_append h.name]
  simp only [Urn.stem, Urn.child, qualify_snoc]
  simp

theorem createUrn_root (amb : Ambient) (t n p s : Text) :
    createUrn amb n t none (some p) (some s) = (Urn.root s p t n).text := by
  rw [text_eq]
  simp [createUrn, Urn.stem, Urn.root, qualify]

theorem createUrn_root_default (amb : Ambient) (t n : Text) :
    createUrn amb n t none none none = (Urn.root amb.stack amb.project t n).text := by
  rw [text_eq]
  simp [createUrn, Urn.stem, Urn.root, qualify]

theorem inherited_text (amb : Ambient) {pa : Urn} (h : pa.Clean) (pn cn ct m : Text)
    (hm : NameUnder pa.name pn cn m) :
    inheritedChildAlias amb cn pn pa.text ct = (pa.child ct m).text := by
  unfold inheritedChildAlias
  simp only
  rw [createUrn_child amb h]
  cases hm with
  | prefixed s =>
    have : pn.isPrefixOf (pn ++ s) = true := by rw [List.isPrefixOf_iff_prefix]; exact List.prefix_append ..
    rw [if_pos this, text_eq pa, afterLastSep_append h.name]
    simp
  | other hn =>
    have : ¬ pn.isPrefixOf cn = true := by
      rw [List.isPrefixOf_iff_prefix]
      rintro ⟨s, hs⟩
      exact hn s hs.symm
    rw [if_neg this]

theorem urnTypeAndName_text {u : Urn} (h : u.Clean) : urnTypeAndName u.text = .ok (u.name, u.type_) := by
  simp only [urnTypeAndName, splitSep_text h]
  simp [splitChar_qualify (fun x hx => (h.ancestors x hx).2) h.type_.2]

/-- Every name has a name under a former parent name. -/
theorem nameUnder_exists (old new n : Text) : ∃ m, NameUnder old new n m := by
  by_cases h : ∃ s, n = new ++ s
  · obtain ⟨s, rfl⟩ := h
    exact ⟨_, .prefixed s⟩
  · exact ⟨n, .other (fun s hs => h ⟨s, hs⟩)⟩

end Pulumi.Urn
