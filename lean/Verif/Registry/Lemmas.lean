import Verif.Registry.Spec

/-!
# Lemmas about the registries
-/
namespace Pulumi.Registry

/-! ## Comparisons -/

theorem then_gt {a b : Ordering} : a.then b = .gt ↔ a = .gt ∨ (a = .eq ∧ b = .gt) := by
  cases a <;> simp [Ordering.then]

theorem then_eq' {a b : Ordering} : a.then b = .eq ↔ a = .eq ∧ b = .eq := by
  cases a <;> simp [Ordering.then]

theorem nat_gt {a b : Nat} : compare a b = .gt ↔ b < a := Nat.compare_eq_gt

theorem nat_eq {a b : Nat} : compare a b = .eq ↔ a = b := Nat.compare_eq_eq

theorem str_eq {a b : String} : compare a b = .eq ↔ a = b := by
  simp

theorem str_gt {a b : String} : compare a b = .gt ↔ b < a := by
  show compareOfLessAndEq a b = .gt ↔ _
  unfold compareOfLessAndEq
  by_cases h : a < b
  · simp only [h, if_true]
    constructor
    · intro x; cases x
    · intro x; exact absurd (String.lt_trans h x) (String.lt_irrefl _)
  · simp only [h, if_false]
    by_cases h2 : a = b
    · subst h2
      simp [String.lt_irrefl]
    · simp only [h2, if_false, true_iff]
      exact Classical.byContradiction fun h3 => h2 (String.le_antisymm h3 h)

theorem ident_gt {a b : Ident} : a.cmp b = .gt ↔ a.Later b := by
  cases a <;> cases b <;> simp [Ident.cmp, Ident.key, Ident.Later, then_gt, then_eq', str_gt, nat_gt]

theorem ident_eq {a b : Ident} : a.cmp b = .eq ↔ a = b := by
  cases a <;> cases b <;> simp [Ident.cmp, Ident.key, then_eq']

theorem ident_later_trans {a b c : Ident} (h : a.Later b) (h' : b.Later c) : a.Later c := by
  cases a <;> cases b <;> cases c <;> simp [Ident.Later] at *
  · omega
  · exact String.lt_trans h' h

theorem ids_eq : ∀ {a b : List Ident}, idsCmp a b = .eq ↔ a = b
  | [], [] => by simp [idsCmp]
  | [], _ :: _ => by simp [idsCmp]
  | _ :: _, [] => by simp [idsCmp]
  | x :: xs, y :: ys => by simp [idsCmp, then_eq', ident_eq, ids_eq (a := xs) (b := ys)]

theorem tagLater_cons {x : Ident} {xs ys : List Ident} (h : TagLater xs ys) : TagLater (x :: xs) (x :: ys) := by
  obtain ⟨c, ⟨z, more, rfl, rfl⟩ | ⟨a, as, b, bs, rfl, rfl, h⟩⟩ := h
  · exact ⟨x :: ys, .inl ⟨z, more, rfl, rfl⟩⟩
  · exact ⟨x :: c, .inr ⟨a, as, b, bs, rfl, rfl, h⟩⟩

theorem ident_later_irrefl {a : Ident} : ¬ a.Later a := by
  cases a <;> simp [Ident.Later, String.lt_irrefl]

theorem tagLater_cons_cons {x y : Ident} {xs ys : List Ident} :
    TagLater (x :: xs) (y :: ys) ↔ x.Later y ∨ (x = y ∧ TagLater xs ys) := by
  constructor
  · rintro ⟨c, ⟨z, more, h1, h2⟩ | ⟨a, as, b, bs, h1, h2, h⟩⟩
    · cases c with
      | nil => cases h2
      | cons c cs =>
        simp only [List.cons_append, List.cons.injEq] at h1 h2
        exact .inr ⟨h1.1.trans h2.1.symm, cs, .inl ⟨z, more, h1.2, h2.2⟩⟩
    · cases c with
      | nil =>
        simp only [List.nil_append, List.cons.injEq] at h1 h2
        rw [h1.1, h2.1]
        exact .inl h
      | cons c cs =>
        simp only [List.cons_append, List.cons.injEq] at h1 h2
        exact .inr ⟨h1.1.trans h2.1.symm, cs, .inr ⟨a, as, b, bs, h1.2, h2.2, h⟩⟩
  · rintro (h | ⟨rfl, h⟩)
    · exact ⟨[], .inr ⟨x, xs, y, ys, rfl, rfl, h⟩⟩
    · exact tagLater_cons h

theorem ids_gt : ∀ {a b : List Ident}, idsCmp a b = .gt ↔ TagLater a b
  | [], [] => by simp [idsCmp, TagLater]
  | [], _ :: _ => by simp [idsCmp, TagLater]
  | x :: xs, [] => by
    simp only [idsCmp, true_iff]
    exact ⟨[], .inl ⟨x, xs, rfl, rfl⟩⟩
  | x :: xs, y :: ys => by
    simp only [idsCmp, then_gt, ident_gt, ident_eq, ids_gt (a := xs) (b := ys), tagLater_cons_cons]

theorem tagLater_nil {a : List Ident} : ¬ TagLater [] a := by
  simp [TagLater]

theorem tagLater_trans : ∀ {a b c : List Ident}, TagLater a b → TagLater b c → TagLater a c
  | [], _, _, h, _ => absurd h tagLater_nil
  | _ :: _, [], _, _, h => absurd h tagLater_nil
  | x :: xs, y :: ys, [], _, _ => ⟨[], .inl ⟨x, xs, rfl, rfl⟩⟩
  | x :: xs, y :: ys, z :: zs, h, h' => by
    rw [tagLater_cons_cons] at *
    rcases h with h | ⟨rfl, h⟩ <;> rcases h' with h' | ⟨rfl, h'⟩
    · exact .inl (ident_later_trans h h')
    · exact .inl h
    · exact .inl h'
    · exact .inr ⟨rfl, tagLater_trans h h'⟩

theorem pre_gt {a b : List Ident} :
    preCmp a b = .gt ↔ (a = [] ∧ b ≠ [] ∨ a ≠ [] ∧ b ≠ [] ∧ TagLater a b) := by
  cases a <;> cases b <;> simp [preCmp, ids_gt]

theorem pre_eq {a b : List Ident} : preCmp a b = .eq ↔ a = b := by
  cases a <;> cases b <;> simp [preCmp, ids_eq]

theorem cmp_gt {a b : Version} : a.cmp b = .gt ↔ Newer a b := by
  simp only [Version.cmp, then_gt, nat_gt, nat_eq, pre_gt, Newer]

theorem cmp_eq {a b : Version} : a.cmp b = .eq ↔ a = b := by
  cases a; cases b
  simp [Version.cmp, then_eq', pre_eq]

theorem newer_trans {a b c : Version} (h : Newer a b) (h' : Newer b c) : Newer a c := by
  unfold Newer at *
  rcases h with h | ⟨e1, h | ⟨e2, h | ⟨e3, h⟩⟩⟩ <;> rcases h' with h' | ⟨f1, h' | ⟨f2, h' | ⟨f3, h'⟩⟩⟩
  case inr.inr.inr.inr.inr.inr =>
    refine .inr ⟨e1.trans f1, .inr ⟨e2.trans f2, .inr ⟨e3.trans f3, ?_⟩⟩⟩
    rcases h with ⟨h1, h2⟩ | ⟨h1, h2, h3⟩ <;> rcases h' with ⟨g1, g2⟩ | ⟨g1, g2, g3⟩
    · exact absurd g1 h2
    · exact .inl ⟨h1, g2⟩
    · exact absurd g1 h2
    · exact .inr ⟨h1, g2, tagLater_trans h3 g3⟩
  all_goals omega

theorem newer_irrefl {a : Version} : ¬ Newer a a := by
  intro h
  have := cmp_gt.2 h
  rw [cmp_eq.2 rfl] at this
  cases this

theorem ident_total (a b : Ident) : a.Later b ∨ b.Later a ∨ a = b := by
  cases a <;> cases b <;> simp only [Ident.Later, Ident.num.injEq, Ident.alpha.injEq, true_or, or_true]
  · omega
  · rename_i s t
    by_cases h : t < s
    · exact .inl h
    · by_cases h' : s < t
      · exact .inr (.inl h')
      · exact .inr (.inr (String.le_antisymm h h'))

theorem tag_total : ∀ (a b : List Ident), TagLater a b ∨ TagLater b a ∨ a = b
  | [], [] => .inr (.inr rfl)
  | [], y :: ys => .inr (.inl ⟨[], .inl ⟨y, ys, rfl, rfl⟩⟩)
  | x :: xs, [] => .inl ⟨[], .inl ⟨x, xs, rfl, rfl⟩⟩
  | x :: xs, y :: ys => by
    rw [tagLater_cons_cons, tagLater_cons_cons]
    rcases ident_total x y with h | h | rfl
    · exact .inl (.inl h)
    · exact .inr (.inl (.inl h))
    · rcases tag_total xs ys with h | h | rfl
      · exact .inl (.inr ⟨rfl, h⟩)
      · exact .inr (.inl (.inr ⟨rfl, h⟩))
      · exact .inr (.inr rfl)

theorem newer_total (a b : Version) : Newer a b ∨ Newer b a ∨ a = b := by
  obtain ⟨a1, a2, a3, a4⟩ := a
  obtain ⟨b1, b2, b3, b4⟩ := b
  unfold Newer
  simp only [Version.mk.injEq]
  rcases Nat.lt_trichotomy a1 b1 with h | rfl | h
  · exact .inr (.inl (.inl h))
  · rcases Nat.lt_trichotomy a2 b2 with h | rfl | h
    · exact .inr (.inl (.inr ⟨rfl, .inl h⟩))
    · rcases Nat.lt_trichotomy a3 b3 with h | rfl | h
      · exact .inr (.inl (.inr ⟨rfl, .inr ⟨rfl, .inl h⟩⟩))
      · rcases tag_total a4 b4 with h | h | rfl
        · cases a4 <;> cases b4
          · exact absurd h tagLater_nil
          · exact absurd h tagLater_nil
          · simp
          · simp [h]
        · cases a4 <;> cases b4
          · exact absurd h tagLater_nil
          · simp
          · exact absurd h tagLater_nil
          · simp [h]
        · simp
      · exact .inl (.inr ⟨rfl, .inr ⟨rfl, .inl h⟩⟩)
    · exact .inl (.inr ⟨rfl, .inl h⟩)
  · exact .inl (.inl h)

theorem same_clash {a b : Option Version} : sameVersion a b = true ↔ Clash a b := by
  cases a <;> cases b <;> simp [sameVersion, Clash, cmp_eq]

theorem check_acceptable {w v : Option Version} : checkVersion w v = true ↔ Acceptable w v := by
  cases w <;> cases v <;> simp [checkVersion, Acceptable, and_assoc]

/-! ## The table -/

theorem lookup_cons_if (k a : String) (b : List Entry) (t : Table) :
    List.lookup k ((a, b) :: t) = if k = a then some b else t.lookup k := by
  simp only [List.lookup]
  by_cases h : k = a
  · simp [h]
  · simp [h, beq_eq_false_iff_ne.2 h]

theorem lookup_setKey (t : Table) (k k' : String) (v : List Entry) :
    (setKey t k v).lookup k' = if k' = k then some v else t.lookup k' := by
  induction t with
  | nil => simp only [setKey, lookup_cons_if, List.lookup]
  | cons kv t ih =>
    obtain ⟨a, b⟩ := kv
    unfold setKey
    by_cases h : a = k
    · subst h
      simp only [if_true, lookup_cons_if]
      by_cases h2 : k' = a <;> simp [h2]
    · simp only [h, if_false, lookup_cons_if, ih]
      by_cases h2 : k' = a
      · subst h2; simp [h]
      · simp [h2]

/-- What is registered under a key. -/
def entries (t : Table) (k : String) : List Entry := (t.lookup k).getD []

theorem register_error {t : Table} {k : String} {e : Entry} :
    register t k e = .error .value ↔ ∃ x ∈ entries t k, Clash x.version e.version := by
  unfold register entries
  cases h : t.lookup k with
  | none => simp
  | some es =>
    simp only [Option.getD_some]
    by_cases h2 : es.any (fun x => sameVersion x.version e.version) = true
    · simp only [h2, if_true, true_iff]
      obtain ⟨x, hx, hc⟩ := List.any_eq_true.1 h2
      exact ⟨x, hx, same_clash.1 hc⟩
    · simp only [h2]
      refine ⟨fun hh => by simp at hh, fun ⟨x, hx, hc⟩ => ?_⟩
      exact absurd (List.any_eq_true.2 ⟨x, hx, same_clash.2 hc⟩) h2

theorem register_ok {t : Table} {k : String} {e : Entry} (h : ∀ x ∈ entries t k, ¬ Clash x.version e.version) :
    ∃ t', register t k e = .ok t' ∧ ∀ k', entries t' k' = if k' = k then entries t k ++ [e] else entries t k' := by
  unfold register
  unfold entries at h
  cases hl : t.lookup k with
  | none =>
    refine ⟨_, rfl, fun k' => ?_⟩
    simp only [entries, lookup_setKey]
    by_cases hk : k' = k <;> simp [hk, hl]
  | some es =>
    simp only [hl, Option.getD_some] at h
    have : es.any (fun x => sameVersion x.version e.version) = false := by
      rw [List.any_eq_false]
      intro x hx hc
      exact h x hx (same_clash.1 hc)
    simp only [this]
    refine ⟨_, rfl, fun k' => ?_⟩
    simp only [entries, lookup_setKey]
    by_cases hk : k' = k <;> simp [hk, hl]

theorem mem_after (h : History) : ∀ k e, e ∈ entries (after h) k ↔ InForce h k e := by
  induction h with
  | nil => intro k e; simp [after, entries, InForce]
  | cons c h ih =>
    obtain ⟨k0, e0⟩ := c
    intro k e
    unfold InForce
    by_cases hc : ∃ x ∈ entries (after h) k0, Clash x.version e0.version
    · have : after ((k0, e0) :: h) = after h := by
        show (match register (after h) k0 e0 with | .ok t => t | .error _ => after h) = _
        rw [register_error.2 hc]
      rw [this, ih]
      refine ⟨Or.inl, ?_⟩
      rintro (hh | ⟨rfl, rfl, hh⟩)
      · exact hh
      · obtain ⟨x, hx, hcl⟩ := hc
        exact absurd hcl (hh x ((ih _ _).1 hx))
    · have hn : ∀ x ∈ entries (after h) k0, ¬ Clash x.version e0.version := fun x hx hcl => hc ⟨x, hx, hcl⟩
      obtain ⟨t', ht, he⟩ := register_ok hn
      have : after ((k0, e0) :: h) = t' := by
        show (match register (after h) k0 e0 with | .ok t => t | .error _ => after h) = _
        rw [ht]
      rw [this, he, ← ih k e]
      by_cases hk : k = k0
      · subst hk
        simp only [if_true, List.mem_append, List.mem_singleton, true_and]
        refine or_congr Iff.rfl ⟨?_, fun hh => hh.1.symm⟩
        rintro rfl
        exact ⟨rfl, fun x hx => hn x ((ih _ _).2 hx)⟩
      · simp only [hk, if_false]
        refine ⟨Or.inl, ?_⟩
        rintro (hh | ⟨rfl, _⟩)
        · exact hh
        · exact absurd rfl hk

/-- Under one key, no two registrations clash. -/
theorem no_clash (h : History) (k : String) :
    (entries (after h) k).Pairwise (fun a b => ¬ Clash a.version b.version) := by
  induction h with
  | nil => simp [after, entries]
  | cons c h ih =>
    obtain ⟨k0, e0⟩ := c
    by_cases hc : ∃ x ∈ entries (after h) k0, Clash x.version e0.version
    · have : after ((k0, e0) :: h) = after h := by
        show (match register (after h) k0 e0 with | .ok t => t | .error _ => after h) = _
        rw [register_error.2 hc]
      rw [this]
      exact ih
    · have hn : ∀ x ∈ entries (after h) k0, ¬ Clash x.version e0.version := fun x hx hcl => hc ⟨x, hx, hcl⟩
      obtain ⟨t', ht, he⟩ := register_ok hn
      have : after ((k0, e0) :: h) = t' := by
        show (match register (after h) k0 e0 with | .ok t => t | .error _ => after h) = _
        rw [ht]
      rw [this, he]
      by_cases hk : k = k0
      · subst hk
        simp only [if_true]
        rw [List.pairwise_append]
        refine ⟨ih, by simp, fun a ha b hb => ?_⟩
        rw [List.mem_singleton] at hb
        subst hb
        exact hn a ha
      · simp only [hk, if_false]
        exact ih

/-! ## The loop -/

/-- The entry `e` is a best one for `want` among those of which `P` holds. -/
def Best (want : Option Version) (P : Entry → Prop) (e : Entry) : Prop :=
  P e ∧ Acceptable want e.version ∧
    ∀ x v u, P x → Acceptable want x.version → x.version = some v → e.version = some u → ¬ Newer v u

theorem best_some (want : Option Version) : ∀ (es : List Entry) (P : Entry → Prop) (b : Entry) (v : Version),
    b.version = some v → (∀ e ∈ es, e.version ≠ none) → Best want P b →
    ∃ r, best want (some b) es = .ok (some r) ∧ Best want (fun x => P x ∨ x ∈ es) r := by
  intro es
  induction es with
  | nil => intro P b v _ _ hb; exact ⟨b, rfl, by simpa using hb⟩
  | cons e es ih =>
    intro P b v hv hne hb
    have hrest : ∀ x ∈ es, x.version ≠ none := fun x hx => hne x (.tail _ hx)
    obtain ⟨u, hu⟩ := Option.ne_none_iff_exists'.1 (hne e (.head _))
    have hcongr : ∀ r, Best want (fun x => (P x ∨ x = e) ∨ x ∈ es) r → Best want (fun x => P x ∨ x ∈ e :: es) r := by
      intro r hr
      have : (fun x => (P x ∨ x = e) ∨ x ∈ es) = (fun x => P x ∨ x ∈ e :: es) := by
        funext x
        simp [or_assoc]
      rw [← this]
      exact hr
    unfold best
    by_cases hc : checkVersion want e.version = true
    · rw [if_pos hc]
      simp only [greater, hu, hv]
      by_cases hg : Newer u v
      · rw [cmp_gt.2 hg]
        obtain ⟨r, hr, hbr⟩ := ih (fun x => P x ∨ x = e) e u hu hrest
          ⟨.inr rfl, check_acceptable.1 hc, by
            intro x vx ux hx hax hvx hux hnew
            rw [hu] at hux
            cases hux
            rcases hx with hx | rfl
            · exact hb.2.2 x vx v hx hax hvx hv (newer_trans hnew hg)
            · rw [hu] at hvx
              cases hvx
              exact newer_irrefl hnew⟩
        exact ⟨r, hr, hcongr r hbr⟩
      · have : (u.cmp v == Ordering.gt) = false := by
          rw [beq_eq_false_iff_ne]
          exact fun hh => hg (cmp_gt.1 hh)
        rw [this]
        obtain ⟨r, hr, hbr⟩ := ih (fun x => P x ∨ x = e) b v hv hrest
          ⟨.inl hb.1, hb.2.1, by
            intro x vx ux hx hax hvx hux hnew
            rcases hx with hx | rfl
            · exact hb.2.2 x vx ux hx hax hvx hux hnew
            · rw [hu] at hvx
              rw [hv] at hux
              cases hvx
              cases hux
              exact hg hnew⟩
        exact ⟨r, hr, hcongr r hbr⟩
    · simp only [hc]
      obtain ⟨r, hr, hbr⟩ := ih (fun x => P x ∨ x = e) b v hv hrest
        ⟨.inl hb.1, hb.2.1, by
          intro x vx ux hx hax hvx hux hnew
          rcases hx with hx | rfl
          · exact hb.2.2 x vx ux hx hax hvx hux hnew
          · exact absurd (check_acceptable.2 hax) hc⟩
      exact ⟨r, hr, hcongr r hbr⟩

theorem best_none (want : Option Version) : ∀ (es : List Entry),
    es.Pairwise (fun a b => ¬ Clash a.version b.version) →
    (best want none es = .ok none ∧ ∀ e ∈ es, ¬ Acceptable want e.version) ∨
    ∃ r, best want none es = .ok (some r) ∧ Best want (fun x => x ∈ es) r := by
  intro es
  induction es with
  | nil => intro _; exact .inl ⟨rfl, by simp⟩
  | cons e es ih =>
    intro hp
    rw [List.pairwise_cons] at hp
    unfold best
    by_cases hc : checkVersion want e.version = true
    · simp only [hc, if_true]
      right
      cases hv : e.version with
      | none =>
        have : es = [] := by
          cases es with
          | nil => rfl
          | cons x xs => exact absurd (.inl hv) (hp.1 x (.head _))
        subst this
        refine ⟨e, rfl, .head _, check_acceptable.1 hc, ?_⟩
        intro x v u hx _ _ hu
        rw [hv] at hu
        cases hu
      | some v =>
        have hne : ∀ x ∈ es, x.version ≠ none := fun x hx hn => hp.1 x hx (.inr (.inl hn))
        obtain ⟨r, hr, hb⟩ := best_some want es (fun x => x = e) e v hv hne ⟨rfl, check_acceptable.1 hc, by
          intro x vx ux hx _ hvx hux hnew
          subst hx
          rw [hvx] at hux
          cases hux
          exact newer_irrefl hnew⟩
        refine ⟨r, hr, ?_⟩
        have : (fun x => x = e ∨ x ∈ es) = (fun x => x ∈ e :: es) := by
          funext x
          simp
        rw [← this]
        exact hb
    · simp only [hc]
      rcases ih hp.2 with ⟨h1, h2⟩ | ⟨r, hr, hm, ha, hb⟩
      · refine .inl ⟨h1, fun x hx => ?_⟩
        rcases List.mem_cons.1 hx with rfl | hx
        · exact fun h => hc (check_acceptable.2 h)
        · exact h2 x hx
      · refine .inr ⟨r, hr, .tail _ hm, ha, ?_⟩
        intro x v u hx hax hvx hu
        rcases List.mem_cons.1 hx with rfl | hx
        · exact absurd (check_acceptable.2 hax) hc
        · exact hb x v u hx hax hvx hu

end Pulumi.Registry
