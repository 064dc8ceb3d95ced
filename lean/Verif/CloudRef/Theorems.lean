import Verif.CloudRef.Model
/-!
# What a name of a stack stands for (C227)
-/
namespace Pulumi.CloudRef

/-! ## Specification -/

/-- A part of a name: not empty, and without a slash -/
def Part (s : Str) : Prop := s ≠ [] ∧ '/' ∉ s

/-- A legal name of a stack: letters, digits, underscores, periods and hyphens -/
def Legal (s : Str) : Prop :=
  s ≠ [] ∧ ∀ c ∈ s, ('A' ≤ c ∧ c ≤ 'Z') ∨ ('a' ≤ c ∧ c ≤ 'z') ∨ ('0' ≤ c ∧ c ≤ '9') ∨ c = '_' ∨ c = '.' ∨ c = '-'

/-- The owner that is meant where none is given: the default organization, or the user where there is none -/
def DefaultOwner (e : Env) (o : Str) : Prop :=
  (e.defaultOrg = some o ∧ o ≠ []) ∨ (e.defaultOrg = some [] ∧ e.user = some o)

/-! ## The parts -/

theorem isName_iff (s : Str) : isName s = true ↔ Legal s := by
  simp [isName, Legal, nameChar, or_assoc]

theorem legal_no_slash {s : Str} (h : Legal s) : '/' ∉ s := by
  intro hm
  have := h.2 _ hm
  revert this
  decide

theorem split_free {x : Str} (h : '/' ∉ x) : split x = [x] := by
  induction x with
  | nil => rfl
  | cons c cs ih =>
    simp only [List.mem_cons, not_or] at h
    simp [split, ih h.2, Ne.symm h.1]

theorem split_slash {x : Str} (h : '/' ∉ x) (y : Str) : split (x ++ '/' :: y) = x :: split y := by
  induction x with
  | nil => simp [split]
  | cons c cs ih =>
    simp only [List.mem_cons, not_or] at h
    simp [split, ih h.2, Ne.symm h.1]

theorem ownerOf_default {e : Env} {o : Str} : ownerOf e [] = .ok o ↔ DefaultOwner e o := by
  simp only [ownerOf, DefaultOwner, if_true]
  cases hd : e.defaultOrg with
  | none => simp
  | some org =>
    cases org with
    | nil => cases hu : e.user <;> simp
    | cons c cs => simp; rintro rfl; simp

/-! ## What a name is read as -/

/-- **C227.** A name with its owner and project is read as just these, wherever it is read, and is accepted exactly where the name is legal. -/
theorem full_name (e : Env) {o p n : Str} (ho : Part o) (hp : Part p) (hn : '/' ∉ n) :
    (Legal n → parse e (o ++ '/' :: (p ++ '/' :: n)) = .ok ⟨o, p, n⟩) ∧ (¬ Legal n → parse e (o ++ '/' :: (p ++ '/' :: n)) = .error .name) := by
  have h : parse e (o ++ '/' :: (p ++ '/' :: n)) = if isName n then .ok ⟨o, p, n⟩ else .error .name := by
    simp only [parse, parseName, split_slash ho.2, split_slash hp.2, split_free hn, ownerOf, projectOf, ho.1, hp.1, if_false]
  rw [h, ← isName_iff]
  constructor
  · intro h; simp [h]
  · intro h; simp [h]

/-- **C227.** A name with an owner only is one of the project it is read in. -/
theorem owner_and_name (e : Env) {o n : Str} (ho : Part o) (hn : Legal n) (r : Ref) :
    parse e (o ++ '/' :: n) = .ok r ↔ e.project = some r.project ∧ r.owner = o ∧ r.name = n := by
  have hl := (isName_iff n).2 hn
  simp only [parse, parseName, split_slash ho.2, split_free (legal_no_slash hn), ownerOf, projectOf, ho.1, if_false, if_true]
  cases hp : e.project with
  | none => simp
  | some p =>
    obtain ⟨a, b, c⟩ := r
    simp only [hl, if_true, Except.ok.injEq, Ref.mk.injEq, Option.some.injEq]
    constructor
    · rintro ⟨rfl, rfl, rfl⟩; exact ⟨rfl, rfl, rfl⟩
    · rintro ⟨rfl, rfl, rfl⟩; exact ⟨rfl, rfl, rfl⟩

/-- **C227.** A bare name is one of the default organization, or of the user where there is none, and of the project it is read in. -/
theorem bare_name (e : Env) {n : Str} (hn : Legal n) (r : Ref) :
    parse e n = .ok r ↔ DefaultOwner e r.owner ∧ e.project = some r.project ∧ r.name = n := by
  have hl := (isName_iff n).2 hn
  have hd := @ownerOf_default e
  simp only [parse, parseName, split_free (legal_no_slash hn), projectOf, if_true]
  cases ho : ownerOf e [] with
  | error x =>
    simp only [reduceCtorEq, false_iff]
    rintro ⟨h, -⟩
    have := hd.2 h; rw [ho] at this; cases this
  | ok o =>
    cases hp : e.project with
    | none => simp
    | some p =>
      obtain ⟨a, b, c⟩ := r
      simp only [hl, if_true, Except.ok.injEq, Ref.mk.injEq, Option.some.injEq]
      rw [← hd, ho]
      simp only [Except.ok.injEq]
      constructor
      · rintro ⟨rfl, rfl, rfl⟩; exact ⟨rfl, rfl, rfl⟩
      · rintro ⟨rfl, rfl, rfl⟩; exact ⟨rfl, rfl, rfl⟩

/-- **C227.** A name with four parts or more is refused, wherever it is read. -/
theorem too_many_parts (e : Env) {a b c : Str} (ha : '/' ∉ a) (hb : '/' ∉ b) (hc : '/' ∉ c) (rest : Str) :
    parse e (a ++ '/' :: (b ++ '/' :: (c ++ '/' :: rest))) = .error .parts := by
  simp only [parse, parseName, split_slash ha, split_slash hb, split_slash hc]
  cases hs : split rest with
  | cons x xs => rfl
  | nil =>
    cases rest with
    | nil => simp [split] at hs
    | cons d ds =>
      simp only [split] at hs
      split at hs
      · cases hs
      · split at hs <;> cases hs

/-- **C227.** Whatever is accepted has a legal name. -/
theorem accepted_is_legal {e : Env} {s : Str} {r : Ref} (h : parse e s = .ok r) : Legal r.name := by
  simp only [parse] at h
  split at h
  · cases h
  · split at h
    · cases h
    · split at h
      · cases h
      · split at h
        · rename_i hn; cases h; exact (isName_iff _).1 hn
        · cases h

example : parse ⟨some [], some "ada".toList, some "site".toList⟩ "dev".toList = .ok ⟨"ada".toList, "site".toList, "dev".toList⟩ := by rfl

example : parse ⟨some "acme".toList, some "ada".toList, none⟩ "dev".toList = .error .project := by rfl

example : Part "acme".toList ∧ Legal "dev-1".toList := ⟨by unfold Part; decide, (isName_iff _).1 (by decide)⟩

/-! ## What is shown is read back -/

/-- **C227.** The name shown for a stack is read back as that stack, where it is read where it was shown and the default organization can be told:
with any organization, user and project, or none. -/
theorem shown_is_read_back (e : Env) (r : Ref) (ho : Part r.owner) (hp : Part r.project) (hn : Legal r.name) (hd : e.defaultOrg ≠ none) :
    parse e (shown e r) = .ok r := by
  simp only [shown]
  split
  · rename_i hproj
    split
    · rename_i hel
      rw [bare_name e hn]
      refine ⟨?_, hproj, rfl⟩
      simp only [ownerElided] at hel
      cases hdo : e.defaultOrg with
      | none => exact absurd hdo hd
      | some org =>
        rw [hdo] at hel
        cases org with
        | cons c cs => simp at hel; exact .inl ⟨by rw [hdo, hel], ho.1⟩
        | nil =>
          cases hu : e.user with
          | none => simp [hu] at hel
          | some u => simp [hu] at hel; exact .inr ⟨hdo, by rw [hu, hel]⟩
    · exact (owner_and_name e ho hn r).2 ⟨hproj, rfl, rfl⟩
  · exact (full_name e ho hp (legal_no_slash hn)).1 hn

/-- **C227.** Two stacks are never shown by the same name. -/
theorem shown_injective (e : Env) (r₁ r₂ : Ref) (h1 : Part r₁.owner ∧ Part r₁.project ∧ Legal r₁.name)
    (h2 : Part r₂.owner ∧ Part r₂.project ∧ Legal r₂.name) (hd : e.defaultOrg ≠ none) (h : shown e r₁ = shown e r₂) : r₁ = r₂ := by
  have a := shown_is_read_back e r₁ h1.1 h1.2.1 h1.2.2 hd
  have b := shown_is_read_back e r₂ h2.1 h2.2.1 h2.2.2 hd
  rw [h, b] at a
  cases a; rfl

/-- **C227.** No shorter name is shown than is right: the project is left out only for the project at hand, and the owner only where it is the default. -/
theorem shown_in_full (e : Env) (r : Ref) (h : e.project ≠ some r.project) : shown e r = r.owner ++ '/' :: (r.project ++ '/' :: r.name) := by
  simp [shown, h]

/-- **C227.** It is as short as can be: in its project, a stack of the default owner is shown by its bare name. -/
theorem shown_bare (e : Env) (r : Ref) (hp : e.project = some r.project) (ho : DefaultOwner e r.owner) : shown e r = r.name := by
  have : ownerElided e r.owner = true := by
    rcases ho with ⟨h, hne⟩ | ⟨h, hu⟩
    · simp only [ownerElided, h]
      cases hr : r.owner with
      | nil => exact absurd hr hne
      | cons c cs => simp
    · simp [ownerElided, h, hu]
  simp [shown, hp, this]

example : shown ⟨some "acme".toList, some "ada".toList, some "site".toList⟩ ⟨"ada".toList, "site".toList, "dev".toList⟩ = "ada/dev".toList := by decide

/-- **C227, what is wrong.** Where the default organization cannot be told (its file cannot be read), the name shown leaves out the user
all the same, and is then refused: for any user and stack of theirs. -/
theorem shown_is_refused (u p n : Str) (hn : Legal n) :
    shown ⟨none, some u, some p⟩ ⟨u, p, n⟩ = n ∧ parse ⟨none, some u, some p⟩ n = .error .defaultOrg := by
  constructor
  · simp [shown, ownerElided]
  · simp [parse, parseName, split_free (legal_no_slash hn), ownerOf]

/-- **C227, what is wrong.** An empty owner or project is not refused but taken to be left out: `//dev` is read as `dev`, everywhere. -/
theorem empty_parts (e : Env) {n : Str} (hn : '/' ∉ n) : parse e ('/' :: '/' :: n) = parse e n := by
  have h : split ('/' :: '/' :: n) = [[], [], n] := by simp [split, split_free hn]
  simp only [parse, parseName, h, split_free hn]

/-- **C227, what is wrong.** Of the owner and the project, unlike of the name, nothing is asked: any part without a slash is accepted. -/
theorem owner_unchecked (e : Env) : parse e "a b?/c d#/dev".toList = .ok ⟨"a b?".toList, "c d#".toList, "dev".toList⟩ :=
  (full_name e (o := "a b?".toList) (p := "c d#".toList) (n := "dev".toList) ⟨by decide, by decide⟩ ⟨by decide, by decide⟩ (by decide)).1 ((isName_iff _).1 (by decide))

end Pulumi.CloudRef
