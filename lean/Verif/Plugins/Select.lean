import Verif.Plugins.SelectModel
/-!
# The plugin that is chosen is the newest one that fits (C198, C199)
-/
namespace Pulumi.Plugins

/-! ## Specification -/

/-- Plugins that may be chosen: of the kind and name, with no version or one in the range -/
def Fits (kind : Kind) (name : String) (requested : Version → Bool) (p : Plugin) : Prop :=
  p.kind = kind ∧ p.name = name ∧ ∀ v, p.version = some v → requested v = true

/-! ## Selecting -/

theorem select_spec {kind : Kind} {name : String} {requested : Version → Bool} {l : List Plugin}
    (hs : l.Pairwise fun p q => less q.version p.version = false) (best : Option Plugin)
    (hb : ∀ b, best = some b → Fits kind name requested b ∧ ∀ q ∈ l, less q.version b.version = false) :
    (select kind name requested l best = none → best = none ∧ ∀ q ∈ l, ¬ Fits kind name requested q) ∧
    ∀ p, select kind name requested l best = some p → (best = some p ∨ p ∈ l) ∧ Fits kind name requested p ∧
      (∀ b, best = some b → less p.version b.version = false) ∧ ∀ q ∈ l, Fits kind name requested q → less p.version q.version = false := by
  induction l generalizing best with
  | nil =>
    refine ⟨fun h => ⟨h, fun q hq => by cases hq⟩, fun p h => ?_⟩
    replace h : best = some p := h
    exact ⟨.inl h, (hb p h).1, fun b e => by rw [h] at e; cases e; exact less_irrefl _, fun q hq => by cases hq⟩
  | cons x l ih =>
    rw [List.pairwise_cons] at hs
    have hrest : ∀ b, best = some b → Fits kind name requested b ∧ ∀ q ∈ l, less q.version b.version = false :=
      fun b e => ⟨(hb b e).1, fun q hq => (hb b e).2 q (List.mem_cons_of_mem _ hq)⟩
    -- `x` is passed over
    have skip : ¬ Fits kind name requested x ∨ (∃ b, best = some b ∧ less b.version x.version = false) →
        (select kind name requested l best = none → best = none ∧ ∀ q ∈ x :: l, ¬ Fits kind name requested q) ∧
        ∀ p, select kind name requested l best = some p → (best = some p ∨ p ∈ x :: l) ∧ Fits kind name requested p ∧
          (∀ b, best = some b → less p.version b.version = false) ∧ ∀ q ∈ x :: l, Fits kind name requested q → less p.version q.version = false := by
      intro hx
      obtain ⟨h1, h2⟩ := ih hs.2 best hrest
      refine ⟨fun h => ⟨(h1 h).1, fun q hq => ?_⟩, fun p h => ?_⟩
      · rcases List.mem_cons.mp hq with rfl | hq
        · rcases hx with hx | ⟨b, e, _⟩
          · exact hx
          · rw [(h1 h).1] at e; cases e
        · exact (h1 h).2 q hq
      · obtain ⟨a, b, c, d⟩ := h2 p h
        refine ⟨a.imp id (List.mem_cons_of_mem _), b, c, fun q hq hf => ?_⟩
        rcases List.mem_cons.mp hq with rfl | hq
        · rcases hx with hx | ⟨b', e, hl⟩
          · exact absurd hf hx
          · exact less_false_trans hl (c b' e)
        · exact d q hq hf
    -- `x` is taken
    have take : Fits kind name requested x →
        (select kind name requested l (some x) = none → best = none ∧ ∀ q ∈ x :: l, ¬ Fits kind name requested q) ∧
        ∀ p, select kind name requested l (some x) = some p → (best = some p ∨ p ∈ x :: l) ∧ Fits kind name requested p ∧
          (∀ b, best = some b → less p.version b.version = false) ∧ ∀ q ∈ x :: l, Fits kind name requested q → less p.version q.version = false := by
      intro hx
      obtain ⟨h1, h2⟩ := ih hs.2 (some x) (fun b e => by cases e; exact ⟨hx, fun q hq => hs.1 q hq⟩)
      refine ⟨fun h => (by cases (h1 h).1), fun p h => ?_⟩
      obtain ⟨a, b, c, d⟩ := h2 p h
      refine ⟨.inr ?_, b, fun b' e => ?_, fun q hq hf => ?_⟩
      · rcases a with a | a
        · cases a; exact List.mem_cons_self
        · exact List.mem_cons_of_mem _ a
      · exact less_false_trans ((hb b' e).2 x List.mem_cons_self) (c x rfl)
      · rcases List.mem_cons.mp hq with rfl | hq
        · exact c _ rfl
        · exact d q hq hf
    unfold select
    by_cases hk : x.kind ≠ kind ∨ x.name ≠ name
    · rw [if_pos hk]
      exact skip (.inl fun hf => hk.elim (fun h => h hf.1) fun h => h hf.2.1)
    · rw [if_neg hk]
      have hk1 : x.kind = kind := Classical.byContradiction fun h => hk (.inl h)
      have hk2 : x.name = name := Classical.byContradiction fun h => hk (.inr h)
      cases hv : x.version with
      | none =>
        simp only
        cases hbest : best with
        | none => rw [hbest] at take; exact take ⟨hk1, hk2, fun v e => by rw [hv] at e; cases e⟩
        | some b =>
          rw [hbest] at skip
          refine skip (.inr ⟨b, rfl, ?_⟩)
          rw [hv]
          cases b.version <;> rfl
      | some v =>
        simp only
        cases hr : requested v with
        | true => exact take ⟨hk1, hk2, fun w e => by rw [hv] at e; cases e; exact hr⟩
        | false => exact skip (.inl fun hf => by rw [hf.2.2 v hv] at hr; cases hr)

/-- **C198** A plugin is found if and only if one fits, whatever the order of the list and however ties are sorted. -/
theorem select_finds {kind : Kind} {name : String} {requested : Version → Bool} {l l' : List Plugin} (hs : Sorts l l') :
    (select kind name requested l' none).isSome = true ↔ ∃ p ∈ l, Fits kind name requested p := by
  obtain ⟨h1, h2⟩ := select_spec (kind := kind) (name := name) (requested := requested) hs.2 none (fun b e => by cases e)
  constructor
  · intro h
    obtain ⟨p, hp⟩ := Option.isSome_iff_exists.mp h
    obtain ⟨a, b, _⟩ := h2 p hp
    rcases a with a | a
    · cases a
    · exact ⟨p, hs.1.mem_iff.mp a, b⟩
  · rintro ⟨p, hp, hf⟩
    cases h : select kind name requested l' none with
    | some q => rfl
    | none => exact absurd hf ((h1 h).2 p (hs.1.mem_iff.mpr hp))

/-- **C198** It is one of the list that fits, and none that fits has a later version; one without version is chosen only if no version fits. -/
theorem select_newest {kind : Kind} {name : String} {requested : Version → Bool} {l l' : List Plugin} (hs : Sorts l l') {p : Plugin}
    (h : select kind name requested l' none = some p) :
    p ∈ l ∧ Fits kind name requested p ∧ ∀ q ∈ l, Fits kind name requested q → ∀ w, q.version = some w → ∃ v, p.version = some v ∧ v.cmp w ≠ .lt := by
  obtain ⟨a, b, _, d⟩ := (select_spec hs.2 none (fun b e => by cases e)).2 p h
  refine ⟨?_, b, fun q hq hf w hw => ?_⟩
  · rcases a with a | a
    · cases a
    · exact hs.1.mem_iff.mp a
  · have := d q (hs.1.mem_iff.mpr hq) hf
    rw [hw] at this
    cases hv : p.version with
    | none => rw [hv] at this; cases this
    | some v =>
      rw [hv] at this
      refine ⟨v, rfl, fun hlt => ?_⟩
      simp only [less, hlt, reduceCtorEq, if_false, decide_true] at this

/-- **C198** If the texts of the versions that fit differ, the same plugin is chosen every time. -/
theorem select_deterministic {kind : Kind} {name : String} {requested : Version → Bool} {l l₁ l₂ : List Plugin} (h₁ : Sorts l l₁) (h₂ : Sorts l l₂)
    (hd : ∀ p ∈ l, ∀ q ∈ l, Fits kind name requested p → Fits kind name requested q → p.version.map Version.text = q.version.map Version.text → p = q) :
    select kind name requested l₁ none = select kind name requested l₂ none := by
  have e₁ := select_finds (kind := kind) (name := name) (requested := requested) h₁
  have e₂ := select_finds (kind := kind) (name := name) (requested := requested) h₂
  cases hs₁ : select kind name requested l₁ none with
  | none =>
    cases hs₂ : select kind name requested l₂ none with
    | none => rfl
    | some q => rw [hs₁] at e₁; rw [hs₂] at e₂; exact absurd (e₁.mpr (e₂.mp rfl)) (by simp)
  | some p =>
    cases hs₂ : select kind name requested l₂ none with
    | none => rw [hs₁] at e₁; rw [hs₂] at e₂; exact absurd (e₂.mpr (e₁.mp rfl)) (by simp)
    | some q =>
      obtain ⟨a₁, b₁, _, d₁⟩ := (select_spec h₁.2 none (fun b e => by cases e)).2 p hs₁
      obtain ⟨a₂, b₂, _, d₂⟩ := (select_spec h₂.2 none (fun b e => by cases e)).2 q hs₂
      have m₁ : p ∈ l := by rcases a₁ with a | a; cases a; exact h₁.1.mem_iff.mp a
      have m₂ : q ∈ l := by rcases a₂ with a | a; cases a; exact h₂.1.mem_iff.mp a
      rw [hd p m₁ q m₂ b₁ b₂ (less_tie (d₁ q (h₁.1.mem_iff.mpr m₂) b₂) (d₂ p (h₂.1.mem_iff.mpr m₁) b₁))]

def v1 : Version := ⟨1, 0, 0, [], []⟩
def v2 : Version := ⟨2, 0, 0, [], []⟩
def demoPlugins : List Plugin := [⟨.resource, "aws", none, ""⟩, ⟨.resource, "aws", some v1, ""⟩, ⟨.language, "aws", some v2, ""⟩, ⟨.resource, "aws", some v2, ""⟩]

example : Sorts demoPlugins demoPlugins := ⟨.refl _, by decide +kernel⟩
example : select .resource "aws" (fun v => v.cmp v2 == .lt) demoPlugins none = some ⟨.resource, "aws", some v1, ""⟩ := by decide +kernel
example : select .resource "aws" (fun _ => true) demoPlugins none = some ⟨.resource, "aws", some v2, ""⟩ := by decide +kernel
example : select .resource "aws" (fun _ => false) demoPlugins none = some ⟨.resource, "aws", none, ""⟩ := by decide +kernel

/-! ## The newest one -/

/-- Plugins of a directory all have versions (`tryPlugin`, plugins.go:1928-1932). -/
def Versioned (l : List Plugin) : Prop := ∀ p ∈ l, p.version ≠ none

theorem cmp_le_trans {a b c : Version} (h : b.cmp a ≠ .lt) (h' : c.cmp b ≠ .lt) : c.cmp a ≠ .lt := by
  have f : ∀ {x y : Version}, y.cmp x ≠ .lt ↔ (x.cmp y).isLE = true := by
    intro x y
    rw [show x.cmp y = (y.cmp x).swap from Std.OrientedCmp.eq_swap]
    cases y.cmp x <;> simp
  exact f.mpr (Std.TransCmp.isLE_trans (f.mp h) (f.mp h'))

theorem cmp_refl (a : Version) : a.cmp a = .eq := Std.ReflCmp.compare_self

theorem cmp_lt_of {a b : Version} (h : a.cmp b ≠ .gt) : b.cmp a ≠ .lt := by
  rw [show b.cmp a = (a.cmp b).swap from Std.OrientedCmp.eq_swap]
  cases hc : a.cmp b <;> simp_all

/-- Without a version the loop finds the newest of those seen. -/
theorem newest_spec {kind : Kind} {name : String} {l : List Plugin} (hv : Versioned l) (best : Option Plugin) (hb : ∀ b, best = some b → b.version ≠ none) :
    (newest kind name none l best = none → best = none ∧ ∀ q ∈ l, ¬ (q.kind = kind ∧ q.name = name)) ∧
    ∀ p, newest kind name none l best = some p → (best = some p ∨ (p ∈ l ∧ p.kind = kind ∧ p.name = name)) ∧
      ∀ q w v, best = some q ∨ (q ∈ l ∧ q.kind = kind ∧ q.name = name) → q.version = some w → p.version = some v → v.cmp w ≠ .lt := by
  induction l generalizing best with
  | nil =>
    refine ⟨fun h => ⟨h, fun q hq => by cases hq⟩, fun p h => ⟨.inl h, fun q w v hq hw hv => ?_⟩⟩
    replace h : best = some p := h
    rcases hq with e | ⟨e, _⟩
    · rw [h] at e; cases e; rw [hw] at hv; cases hv; rw [cmp_refl]; simp
    · cases e
  | cons x l ih =>
    have hvl : Versioned l := fun p hp => hv p (List.mem_cons_of_mem _ hp)
    obtain ⟨vx, hx⟩ := Option.ne_none_iff_exists'.mp (hv x List.mem_cons_self)
    have skip : (¬ (x.kind = kind ∧ x.name = name) ∨ ∃ b vb, best = some b ∧ b.version = some vb ∧ vb.cmp vx ≠ .lt) →
        (newest kind name none l best = none → best = none ∧ ∀ q ∈ x :: l, ¬ (q.kind = kind ∧ q.name = name)) ∧
        ∀ p, newest kind name none l best = some p → (best = some p ∨ (p ∈ x :: l ∧ p.kind = kind ∧ p.name = name)) ∧
          ∀ q w v, best = some q ∨ (q ∈ x :: l ∧ q.kind = kind ∧ q.name = name) → q.version = some w → p.version = some v → v.cmp w ≠ .lt := by
      intro hs
      obtain ⟨h1, h2⟩ := ih hvl best hb
      refine ⟨fun h => ⟨(h1 h).1, fun q hq => ?_⟩, fun p h => ⟨(h2 p h).1.imp id fun ⟨a, b⟩ => ⟨List.mem_cons_of_mem _ a, b⟩, fun q w v hq hw hpv => ?_⟩⟩
      · rcases List.mem_cons.mp hq with rfl | hq
        · rcases hs with hs | ⟨b, _, e, _⟩
          · exact hs
          · rw [(h1 h).1] at e; cases e
        · exact (h1 h).2 q hq
      · rcases hq with e | ⟨hq, hk⟩
        · exact (h2 p h).2 q w v (.inl e) hw hpv
        · rcases List.mem_cons.mp hq with rfl | hq
          · rcases hs with hs | ⟨b, vb, e, e2, hle⟩
            · exact absurd hk hs
            · rw [hx] at hw; cases hw
              exact cmp_le_trans hle ((h2 p h).2 b vb v (.inl e) e2 hpv)
          · exact (h2 p h).2 q w v (.inr ⟨hq, hk⟩) hw hpv
    have take : (x.kind = kind ∧ x.name = name) → (∀ b vb, best = some b → b.version = some vb → vx.cmp vb ≠ .lt) →
        (newest kind name none l (some x) = none → best = none ∧ ∀ q ∈ x :: l, ¬ (q.kind = kind ∧ q.name = name)) ∧
        ∀ p, newest kind name none l (some x) = some p → (best = some p ∨ (p ∈ x :: l ∧ p.kind = kind ∧ p.name = name)) ∧
          ∀ q w v, best = some q ∨ (q ∈ x :: l ∧ q.kind = kind ∧ q.name = name) → q.version = some w → p.version = some v → v.cmp w ≠ .lt := by
      intro hk hs
      obtain ⟨h1, h2⟩ := ih hvl (some x) (fun b e => by cases e; rw [hx]; simp)
      refine ⟨fun h => (by cases (h1 h).1), fun p h => ⟨.inr ?_, fun q w v hq hw hpv => ?_⟩⟩
      · rcases (h2 p h).1 with a | ⟨a, b⟩
        · cases a; exact ⟨List.mem_cons_self, hk⟩
        · exact ⟨List.mem_cons_of_mem _ a, b⟩
      · rcases hq with e | ⟨hq, hk'⟩
        · exact cmp_le_trans (hs q w e hw) ((h2 p h).2 x vx v (.inl rfl) hx hpv)
        · rcases List.mem_cons.mp hq with rfl | hq
          · exact (h2 p h).2 _ w v (.inl rfl) hw hpv
          · exact (h2 p h).2 q w v (.inr ⟨hq, hk'⟩) hw hpv
    unfold newest
    by_cases hk : x.kind = kind ∧ x.name = name
    · rw [if_pos hk]
      cases best with
      | none => exact take hk (fun b vb e => by cases e)
      | some b =>
        obtain ⟨vb, hvb⟩ := Option.ne_none_iff_exists'.mp (hb b rfl)
        simp only [hvb, hx, Bool.or_false]
        by_cases hc : vx.cmp vb = .gt
        · rw [if_pos (by simp [hc])]
          exact take hk (fun b' vb' e e' => by cases e; rw [hvb] at e'; cases e'; rw [hc]; simp)
        · rw [if_neg (by simpa using hc)]
          exact skip (.inr ⟨b, vb, rfl, hvb, cmp_lt_of hc⟩)
    · rw [if_neg hk]
      exact skip (.inl hk)

/-- **C198** If no version is asked for, a plugin of the directory is found if there is one of the kind and name, and it is the newest. -/
theorem newest_without_version {kind : Kind} {name : String} {l : List Plugin} (hv : Versioned l) :
    ((newest kind name none l none).isSome = true ↔ ∃ p ∈ l, p.kind = kind ∧ p.name = name) ∧
    ∀ p, newest kind name none l none = some p → p ∈ l ∧ p.kind = kind ∧ p.name = name ∧
      ∀ q ∈ l, q.kind = kind → q.name = name → ∀ w v, q.version = some w → p.version = some v → v.cmp w ≠ .lt := by
  obtain ⟨h1, h2⟩ := newest_spec (kind := kind) (name := name) hv none (fun b e => by cases e)
  refine ⟨⟨fun h => ?_, fun ⟨p, hp, hk⟩ => ?_⟩, fun p h => ?_⟩
  · obtain ⟨p, hp⟩ := Option.isSome_iff_exists.mp h
    rcases (h2 p hp).1 with e | ⟨a, b⟩
    · cases e
    · exact ⟨p, a, b⟩
  · cases h : newest kind name none l none with
    | some q => rfl
    | none => exact absurd hk ((h1 h).2 p hp)
  · rcases (h2 p h).1 with e | ⟨a, b, c⟩
    · cases e
    · exact ⟨a, b, c, fun q hq hk hn w v hw hpv => (h2 p h).2 q w v (.inr ⟨hq, hk, hn⟩) hw hpv⟩

example : newest .resource "aws" none [⟨.resource, "aws", some v2, ""⟩, ⟨.resource, "aws", some v1, ""⟩] none = some ⟨.resource, "aws", some v2, ""⟩ := by decide +kernel

theorem newest_at_least {kind : Kind} {name : String} {r : Version} {l : List Plugin} (hv : Versioned l) (best : Option Plugin)
    (hb : ∀ b, best = some b → ∃ v, b.version = some v ∧ v.cmp r ≠ .lt) :
    (newest kind name (some r) l best = none → best = none ∧ ∀ q ∈ l, q.kind = kind → q.name = name → ∀ v, q.version = some v → v.cmp r = .lt) ∧
    ∀ p, newest kind name (some r) l best = some p → (best = some p ∨ (p ∈ l ∧ p.kind = kind ∧ p.name = name)) ∧ ∃ v, p.version = some v ∧ v.cmp r ≠ .lt := by
  induction l generalizing best with
  | nil => exact ⟨fun h => ⟨h, fun q hq => by cases hq⟩, fun p h => ⟨.inl h, hb p h⟩⟩
  | cons x l ih =>
    have hvl : Versioned l := fun p hp => hv p (List.mem_cons_of_mem _ hp)
    obtain ⟨vx, hx⟩ := Option.ne_none_iff_exists'.mp (hv x List.mem_cons_self)
    have skip : (¬ (x.kind = kind ∧ x.name = name) ∨ best ≠ none ∨ vx.cmp r = .lt) →
        (newest kind name (some r) l best = none → best = none ∧ ∀ q ∈ x :: l, q.kind = kind → q.name = name → ∀ v, q.version = some v → v.cmp r = .lt) ∧
        ∀ p, newest kind name (some r) l best = some p → (best = some p ∨ (p ∈ x :: l ∧ p.kind = kind ∧ p.name = name)) ∧
          ∃ v, p.version = some v ∧ v.cmp r ≠ .lt := by
      intro hs
      obtain ⟨h1, h2⟩ := ih hvl best hb
      refine ⟨fun h => ⟨(h1 h).1, fun q hq hk hn v hqv => ?_⟩, fun p h => ⟨(h2 p h).1.imp id fun ⟨a, b⟩ => ⟨List.mem_cons_of_mem _ a, b⟩, (h2 p h).2⟩⟩
      rcases List.mem_cons.mp hq with rfl | hq
      · rcases hs with hs | hs | hs
        · exact absurd ⟨hk, hn⟩ hs
        · exact absurd (h1 h).1 hs
        · rw [hx] at hqv; cases hqv; exact hs
      · exact (h1 h).2 q hq hk hn v hqv
    have take : (x.kind = kind ∧ x.name = name) → vx.cmp r ≠ .lt →
        (newest kind name (some r) l (some x) = none → best = none ∧ ∀ q ∈ x :: l, q.kind = kind → q.name = name → ∀ v, q.version = some v → v.cmp r = .lt) ∧
        ∀ p, newest kind name (some r) l (some x) = some p → (best = some p ∨ (p ∈ x :: l ∧ p.kind = kind ∧ p.name = name)) ∧
          ∃ v, p.version = some v ∧ v.cmp r ≠ .lt := by
      intro hk hc
      obtain ⟨h1, h2⟩ := ih hvl (some x) (fun b e => by cases e; exact ⟨vx, hx, hc⟩)
      refine ⟨fun h => (by cases (h1 h).1), fun p h => ⟨.inr ?_, (h2 p h).2⟩⟩
      rcases (h2 p h).1 with a | ⟨a, b⟩
      · cases a; exact ⟨List.mem_cons_self, hk⟩
      · exact ⟨List.mem_cons_of_mem _ a, b⟩
    unfold newest
    by_cases hk : x.kind = kind ∧ x.name = name
    · rw [if_pos hk]
      cases best with
      | none =>
        simp only [hx]
        by_cases hc : vx.cmp r = .lt
        · rw [if_neg (by simp [hc])]
          simpa using skip (.inr (.inr hc))
        · rw [if_pos (by simpa using hc)]
          simpa using take hk hc
      | some b =>
        obtain ⟨vb, hvb, hbr⟩ := hb b rfl
        simp only [hvb, hx]
        by_cases hc : (vx.cmp vb == .gt || vx.cmp r != .lt) = true
        · rw [if_pos hc]
          refine take hk ?_
          rcases Bool.or_eq_true_iff.mp hc with h | h
          · exact cmp_le_trans hbr (by rw [eq_of_beq h]; simp)
          · simpa using h
        · rw [if_neg hc]
          exact skip (.inr (.inl (by simp)))
    · rw [if_neg hk]
      exact skip (.inl hk)

/-- **C198** If a version is asked for, a plugin of the directory is found if and only if there is one that is not before it, and it is not before it. Missing:
that it is the newest, see below. -/
theorem newest_with_version_partial {kind : Kind} {name : String} {r : Version} {l : List Plugin} (hv : Versioned l) :
    ((newest kind name (some r) l none).isSome = true ↔ ∃ p ∈ l, p.kind = kind ∧ p.name = name ∧ ∃ v, p.version = some v ∧ v.cmp r ≠ .lt) ∧
    ∀ p, newest kind name (some r) l none = some p → p ∈ l ∧ p.kind = kind ∧ p.name = name ∧ ∃ v, p.version = some v ∧ v.cmp r ≠ .lt := by
  obtain ⟨h1, h2⟩ := newest_at_least (kind := kind) (name := name) (r := r) hv none (fun b e => by cases e)
  have key : ∀ p, newest kind name (some r) l none = some p → p ∈ l ∧ p.kind = kind ∧ p.name = name ∧ ∃ v, p.version = some v ∧ v.cmp r ≠ .lt := by
    intro p h
    rcases (h2 p h).1 with e | ⟨a, b, c⟩
    · cases e
    · exact ⟨a, b, c, (h2 p h).2⟩
  refine ⟨⟨fun h => ?_, fun ⟨p, hp, hk, hn, v, hpv, hc⟩ => ?_⟩, key⟩
  · obtain ⟨p, hp⟩ := Option.isSome_iff_exists.mp h
    exact ⟨p, key p hp⟩
  · cases h : newest kind name (some r) l none with
    | some q => rfl
    | none => exact absurd ((h1 h).2 p hp hk hn v hpv) hc

/-- **C198, finding** With the old way of searching and a version, which is documented to find the latest version that is not before it, an earlier one of the list
takes the place of a later one: version 10.0.0 comes before version 9.0.0 in a directory. -/
theorem old_search_prefers_older :
    newest .resource "aws" (some v1) [⟨.resource, "aws", some ⟨10, 0, 0, [], []⟩, ""⟩, ⟨.resource, "aws", some ⟨9, 0, 0, [], []⟩, ""⟩] none =
      some ⟨.resource, "aws", some ⟨9, 0, 0, [], []⟩, ""⟩ := by decide +kernel

end Pulumi.Plugins
