import Verif.Registry.Lemmas

/-!
# The registries of packages and modules: the properties
-/
namespace Pulumi.Registry

/-- What a lookup may answer: a best acceptable registration in force, or nothing when there is none. -/
def Answers (h : History) (key : String) (want : Option Version) (r : Option Entry) : Prop :=
  match r with
  | none => ∀ e, InForce h key e → ¬ Acceptable want e.version
  | some e => InForce h key e ∧ Acceptable want e.version ∧
      ∀ x v u, InForce h key x → Acceptable want x.version → x.version = some v → e.version = some u → ¬ Newer v u

theorem best_answers (h : History) (key : String) (want : Option Version) :
    ∃ r, best want none (entries (after h) key) = .ok r ∧ Answers h key want r := by
  rcases best_none want _ (no_clash h key) with ⟨h1, h2⟩ | ⟨r, hr, hm, ha, hb⟩
  · exact ⟨none, h1, fun e he => h2 e ((mem_after h key e).2 he)⟩
  · exact ⟨some r, hr, (mem_after h key r).1 hm, ha,
      fun x v u hx => hb x v u ((mem_after h key x).2 hx)⟩

/-- **C36** A lookup never raises on a version that parses, and its answer is the best acceptable one in force. -/
theorem lookup_best (parse : String → Option Version) (h : History) (key version : String) (want : Option Version)
    (hw : version = "" ∧ want = none ∨ version ≠ "" ∧ ∃ v, parse version = some v ∧ want = some v) :
    ∃ r, get parse (after h) key version = .ok r ∧ Answers h key want r := by
  unfold get
  rcases hw with ⟨rfl, rfl⟩ | ⟨hne, v, hv, rfl⟩
  · simp only [if_true]
    exact best_answers h key none
  · simp only [hne, if_false, hv]
    exact best_answers h key (some v)

/-- **C36** The answer is the only one there can be: two versions in force under one key are never the same. -/
theorem answer_unique (h : History) (key : String) (want : Option Version) (a b : Entry)
    (ha : Answers h key want (some a)) (hb : Answers h key want (some b)) : a = b := by
  have hma := (mem_after h key a).2 ha.1
  have hmb := (mem_after h key b).2 hb.1
  have key_fact : ∀ (es : List Entry), es.Pairwise (fun a b => ¬ Clash a.version b.version) → a ∈ es → b ∈ es →
      a = b ∨ ¬ Clash a.version b.version := by
    intro es hp
    induction es with
    | nil => intro h; cases h
    | cons e es ih =>
      intro h1 h2
      rw [List.pairwise_cons] at hp
      rcases List.mem_cons.1 h1 with rfl | h1' <;> rcases List.mem_cons.1 h2 with rfl | h2'
      · exact .inl rfl
      · exact .inr (hp.1 _ h2')
      · refine .inr fun hc => hp.1 _ h1' ?_
        rcases hc with hc | hc | hc
        · exact .inr (.inl hc)
        · exact .inl hc
        · exact .inr (.inr hc.symm)
      · exact ih hp.2 h1' h2'
  rcases key_fact _ (no_clash h key) hma hmb with h1 | h1
  · exact h1
  · exfalso
    obtain ⟨v, hv⟩ := Option.ne_none_iff_exists'.1 (fun hn => h1 (.inl hn))
    obtain ⟨u, hu⟩ := Option.ne_none_iff_exists'.1 (fun hn => h1 (.inr (.inl hn)))
    have n1 := ha.2.2 b u v hb.1 hb.2.1 hu hv
    have n2 := hb.2.2 a v u ha.1 ha.2.1 hv hu
    rcases newer_total v u with h2 | h2 | h2
    · exact n2 h2
    · exact n1 h2
    · exact h1 (.inr (.inr (by rw [hv, hu, h2])))

/-- **C36** Registering is rejected exactly when it clashes with one in force; what is in force then stays. -/
theorem register_rejects (h : History) (key : String) (e : Entry) :
    (register (after h) key e = .error .value ↔ ∃ x, InForce h key x ∧ Clash x.version e.version) ∧
    ((∃ x, InForce h key x ∧ Clash x.version e.version) →
      ∀ k x, InForce ((key, e) :: h) k x ↔ InForce h k x) ∧
    ((¬ ∃ x, InForce h key x ∧ Clash x.version e.version) →
      (∃ t, register (after h) key e = .ok t) ∧
      ∀ k x, InForce ((key, e) :: h) k x ↔ InForce h k x ∨ k = key ∧ x = e) := by
  have hmem : (∃ x ∈ entries (after h) key, Clash x.version e.version) ↔
      ∃ x, InForce h key x ∧ Clash x.version e.version := by
    constructor
    · rintro ⟨x, hx, hc⟩; exact ⟨x, (mem_after h key x).1 hx, hc⟩
    · rintro ⟨x, hx, hc⟩; exact ⟨x, (mem_after h key x).2 hx, hc⟩
  refine ⟨register_error.trans hmem, ?_, ?_⟩
  · rintro ⟨x, hx, hc⟩ k y
    refine ⟨?_, Or.inl⟩
    rintro (hy | ⟨rfl, rfl, hy⟩)
    · exact hy
    · exact absurd hc (hy x hx)
  · intro hn
    refine ⟨?_, fun k y => ⟨?_, ?_⟩⟩
    · obtain ⟨t, ht, _⟩ := register_ok (t := after h) (k := key) (e := e)
        (fun x hx hc => hn (hmem.1 ⟨x, hx, hc⟩))
      exact ⟨t, ht⟩
    · rintro (hy | ⟨rfl, rfl, _⟩)
      · exact .inl hy
      · exact .inr ⟨rfl, rfl⟩
    · rintro (hy | ⟨rfl, rfl⟩)
      · exact .inl hy
      · exact .inr ⟨rfl, rfl, fun x hx hc => hn ⟨x, hx, hc⟩⟩

/-- **C36** A version that does not parse raises, whatever is registered. -/
theorem unparsable_version (parse : String → Option Version) (t : Table) (key version : String) (hne : version ≠ "")
    (h : parse version = none) : get parse t key version = .error .value := by
  simp [get, hne, h]

/-- **C36** A package registered without a version is alone, and serves every request. -/
theorem wildcard_alone (h : History) (key : String) (e : Entry) (he : InForce h key e) (hn : e.version = none) :
    (∀ x, InForce h key x → x = e) ∧ ∀ want, Answers h key want (some e) := by
  have hall : ∀ x, InForce h key x → x = e := by
    intro x hx
    have hm := (mem_after h key e).2 he
    have hmx := (mem_after h key x).2 hx
    have hp := no_clash h key
    generalize entries (after h) key = es at *
    cases es with
    | nil => cases hm
    | cons y ys =>
      have : ys = [] := by
        cases ys with
        | nil => rfl
        | cons z zs =>
          rw [List.pairwise_cons] at hp
          rcases List.mem_cons.1 hm with rfl | hm
          · exact absurd (.inl hn) (hp.1 z (.head _))
          · exact absurd (.inr (.inl hn)) (hp.1 e hm)
      subst this
      rw [List.mem_singleton] at hm hmx
      rw [hm, hmx]
  refine ⟨hall, fun want => ⟨he, ?_, ?_⟩⟩
  · intro w v _ hv
    rw [hn] at hv
    cases hv
  · intro x v u _ _ _ hu
    rw [hn] at hu
    cases hu

/-- **C36** The keys of modules tell modules apart, provided package names have no colon. -/
theorem moduleKey_injective (p m p' m' : String) (hp : ':' ∉ p.toList) (hp' : ':' ∉ p'.toList)
    (h : moduleKey p m = moduleKey p' m') : p = p' ∧ m = m' := by
  have h1 : p.toList ++ ':' :: m.toList = p'.toList ++ ':' :: m'.toList := by
    have := congrArg String.toList h
    simpa [moduleKey, String.toList_append] using this
  have split : ∀ (a b c d : List Char), ':' ∉ a → ':' ∉ c → a ++ ':' :: b = c ++ ':' :: d → a = c ∧ b = d := by
    intro a
    induction a with
    | nil =>
      intro b c d _ hc hh
      cases c with
      | nil => simpa using hh
      | cons x xs =>
        simp only [List.nil_append, List.cons_append, List.cons.injEq] at hh
        exact absurd (List.mem_cons.2 (.inl hh.1)) hc
    | cons y ys ih =>
      intro b c d ha hc hh
      cases c with
      | nil =>
        simp only [List.nil_append, List.cons_append, List.cons.injEq] at hh
        exact absurd (List.mem_cons.2 (.inl hh.1.symm)) ha
      | cons x xs =>
        simp only [List.cons_append, List.cons.injEq] at hh
        obtain ⟨e1, e2⟩ := ih b xs d (fun hm => ha (.tail _ hm)) (fun hm => hc (.tail _ hm)) hh.2
        exact ⟨by rw [hh.1, e1], e2⟩
  obtain ⟨e1, e2⟩ := split _ _ _ _ hp hp' h1
  exact ⟨String.toList_inj.1 e1, String.toList_inj.1 e2⟩

/-- Otherwise they need not. -/
theorem moduleKey_collision : moduleKey "a:b" "c" = moduleKey "a" "b:c" := by decide

/-- **Not so**: acceptance is not "same major version and not older". A newer 1.2.0 is refused to a request for 1.1.5, and
the older pre-release 1.2.0-alpha serves a request for 1.2.0. -/
theorem acceptance_is_not_the_order :
    (Newer ⟨1, 2, 0, []⟩ ⟨1, 1, 5, []⟩ ∧ ¬ Acceptable (some ⟨1, 1, 5, []⟩) (some ⟨1, 2, 0, []⟩)) ∧
    (Newer ⟨1, 2, 0, []⟩ ⟨1, 2, 0, [.alpha "alpha"]⟩ ∧
      Acceptable (some ⟨1, 2, 0, []⟩) (some ⟨1, 2, 0, [.alpha "alpha"]⟩)) := by
  refine ⟨⟨.inr ⟨rfl, .inl (by decide)⟩, fun h => ?_⟩, .inr ⟨rfl, .inr ⟨rfl, .inr ⟨rfl, .inl ⟨rfl, by simp⟩⟩⟩⟩, ?_⟩
  · have := (h _ _ rfl rfl).2.2
    simp at this
  · intro w v hw hv
    cases hw
    cases hv
    simp

/-! ## The hypotheses can be met -/

/-- 1.0.0, then 1.2.0, then 1.2.0 again, then 2.0.0; latest first. -/
def exampleHistory : History :=
  [("aws", ⟨4, some ⟨2, 0, 0, []⟩⟩), ("aws", ⟨3, some ⟨1, 2, 0, []⟩⟩), ("aws", ⟨2, some ⟨1, 2, 0, []⟩⟩),
    ("aws", ⟨1, some ⟨1, 0, 0, []⟩⟩)]

def exampleParse (s : String) : Option Version := if s = "1.0.0" then some ⟨1, 0, 0, []⟩ else none

example : get exampleParse (after exampleHistory) "aws" "1.0.0" = .ok (some ⟨2, some ⟨1, 2, 0, []⟩⟩) := rfl
example : get exampleParse (after exampleHistory) "aws" "" = .ok (some ⟨4, some ⟨2, 0, 0, []⟩⟩) := rfl
example : get exampleParse (after exampleHistory) "gcp" "" = .ok none := rfl
example : get exampleParse (after exampleHistory) "aws" "x" = .error .value := rfl
example : register (after exampleHistory) "aws" ⟨5, none⟩ = .error .value := rfl
example : InForce exampleHistory "aws" ⟨2, some ⟨1, 2, 0, []⟩⟩ :=
  (mem_after _ _ _).1 (by decide)
example : ¬ InForce exampleHistory "aws" ⟨3, some ⟨1, 2, 0, []⟩⟩ :=
  fun h => absurd ((mem_after _ _ _).2 h) (by decide)
example : InForce [("aws", ⟨1, none⟩)] "aws" ⟨1, none⟩ := (mem_after _ _ _).1 (by decide)
example : Newer ⟨1, 0, 0, [.alpha "beta", .num 2]⟩ ⟨1, 0, 0, [.alpha "beta"]⟩ := cmp_gt.1 (by decide)

end Pulumi.Registry
