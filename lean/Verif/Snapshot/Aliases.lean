import Verif.Snapshot.IntegrityTheorems
/-!
# Aliases in the checkpoint

What becomes of references to the former names of resources when a checkpoint is saved.
-/
namespace Pulumi.Snapshot

/-- What a reference to `u` is to become: the URN of the resource that lists `u` as an alias, or `u` if none does. -/
def Renamed (rs : List State) (u v : String) : Prop :=
  (∃ x ∈ rs, u ∈ x.aliases ∧ v = x.urn) ∨ ((∀ x ∈ rs, u ∉ x.aliases) ∧ v = u)

/-- Two resources of different URNs list one alias. -/
def Ambiguous (rs : List State) : Prop := ∃ x ∈ rs, ∃ y ∈ rs, ∃ a, a ∈ x.aliases ∧ a ∈ y.aliases ∧ x.urn ≠ y.urn

/-- The resource with each URN it refers to changed. -/
def withReferences (g : String → String) (s : State) : State :=
  { s with
    parent := if s.parent = "" then "" else g s.parent
    deps := s.deps.map g
    propDeps := s.propDeps.map (fun kv => (kv.1, kv.2.map g))
    provider := match s.provider with
      | .ref r => .ref ⟨g r.urn, r.id⟩
      | p => p }

/-- The map is right about the aliases of the resources seen so far. -/
def MapOk (rs : List State) (m : List (String × String)) : Prop :=
  ∀ a v, lookup m a = some v ↔ (∃ x ∈ rs, a ∈ x.aliases ∧ x.urn = v)

theorem lookup_cons (k v a : String) (m : List (String × String)) :
    lookup ((k, v) :: m) a = if k = a then some v else lookup m a := rfl

theorem addAliases_ok {urn : String} : ∀ {as : List String} {m m' : List (String × String)},
    addAliases urn as m = some m' →
    (∀ a ∈ as, ∀ v, lookup m a = some v → v = urn) ∧
    (∀ a v, lookup m' a = some v ↔ (lookup m a = some v ∨ (a ∈ as ∧ v = urn))) := by
  intro as
  induction as with
  | nil => intro m m' h; simp only [addAliases, Option.some.injEq] at h; subst h; simp
  | cons b as ih =>
    intro m m' h
    have hstep : addAliases urn as ((b, urn) :: m) = some m' ∧ (∀ v, lookup m b = some v → v = urn) := by
      simp only [addAliases] at h
      split at h
      · rename_i other ho
        split at h
        · simp at h
        · rename_i hne
          refine ⟨h, fun v hv => ?_⟩
          rw [ho, Option.some.injEq] at hv
          rw [← hv]; exact Decidable.not_not.mp hne
      · rename_i ho
        exact ⟨h, fun v hv => by rw [ho] at hv; simp at hv⟩
    have ⟨h1, h2⟩ := ih hstep.1
    constructor
    · intro a ha v hv
      rcases List.mem_cons.mp ha with rfl | ha
      · exact hstep.2 v hv
      · by_cases hb : b = a
        · exact hstep.2 v (hb ▸ hv)
        · exact h1 a ha v (by rw [lookup_cons, if_neg hb]; exact hv)
    · intro a v
      rw [h2, lookup_cons]
      by_cases hb : b = a
      · subst hb
        rw [if_pos rfl]
        constructor
        · rintro (h0 | h0)
          · exact Or.inr ⟨by simp, (Option.some.inj h0).symm⟩
          · exact Or.inr ⟨List.mem_cons_of_mem _ h0.1, h0.2⟩
        · rintro (h0 | h0)
          · exact Or.inl (by rw [hstep.2 v h0])
          · exact Or.inl (by rw [h0.2])
      · rw [if_neg hb]
        have : a ∈ b :: as ↔ a ∈ as := by
          simp only [List.mem_cons]
          exact ⟨fun h => h.resolve_left (fun he => hb he.symm), Or.inr⟩
        rw [this]

theorem addAliases_none {urn : String} : ∀ {as : List String} {m : List (String × String)},
    addAliases urn as m = none → ∃ a ∈ as, ∃ v, lookup m a = some v ∧ v ≠ urn := by
  intro as
  induction as with
  | nil => intro m h; simp [addAliases] at h
  | cons b as ih =>
    intro m h
    have hrec : addAliases urn as ((b, urn) :: m) = none → ∃ a ∈ b :: as, ∃ v, lookup m a = some v ∧ v ≠ urn := by
      intro h'
      have ⟨a, ha, v, hv, hne⟩ := ih h'
      rw [lookup_cons] at hv
      split at hv
      · exact absurd (Option.some.inj hv).symm hne
      · exact ⟨a, List.mem_cons_of_mem _ ha, v, hv, hne⟩
    simp only [addAliases] at h
    split at h
    · rename_i other ho
      split at h
      · rename_i hne; exact ⟨b, by simp, other, ho, hne⟩
      · exact hrec h
    · exact hrec h

theorem aliasMap_spec : ∀ (ss seen : List State) (m : List (String × String)), MapOk seen m → ¬ Ambiguous seen →
    (match aliasMap ss m with
     | some m' => MapOk (seen ++ ss) m' ∧ ¬ Ambiguous (seen ++ ss)
     | none => Ambiguous (seen ++ ss)) := by
  intro ss
  induction ss with
  | nil => intro seen m h ha; simpa [aliasMap] using ⟨h, ha⟩
  | cons s ss ih =>
    intro seen m h ha
    simp only [aliasMap]
    cases hadd : addAliases s.urn s.aliases m with
    | none =>
      have ⟨a, has, v, hv, hne⟩ := addAliases_none hadd
      have ⟨x, hx, hax, hxv⟩ := (h a v).mp hv
      exact ⟨x, by simp [hx], s, by simp, a, hax, has, by rw [hxv]; exact hne⟩
    | some m' =>
      have ⟨h1, h2⟩ := addAliases_ok hadd
      have hok : MapOk (seen ++ [s]) m' := by
        intro a v
        rw [h2, h]
        constructor
        · rintro (⟨x, hx, h3, h4⟩ | ⟨h3, h4⟩)
          · exact ⟨x, by simp [hx], h3, h4⟩
          · exact ⟨s, by simp, h3, h4.symm⟩
        · rintro ⟨x, hx, h3, h4⟩
          rcases List.mem_append.mp hx with hx | hx
          · exact Or.inl ⟨x, hx, h3, h4⟩
          · rw [List.mem_singleton.mp hx] at h3 h4; exact Or.inr ⟨h3, h4.symm⟩
      have hna : ¬ Ambiguous (seen ++ [s]) := by
        rintro ⟨x, hx, y, hy, a, hax, hay, hne⟩
        rcases List.mem_append.mp hx with hx | hx
        · rcases List.mem_append.mp hy with hy | hy
          · exact ha ⟨x, hx, y, hy, a, hax, hay, hne⟩
          · rw [List.mem_singleton.mp hy] at hay hne
            exact hne (h1 a hay x.urn ((h a x.urn).mpr ⟨x, hx, hax, rfl⟩))
        · rw [List.mem_singleton.mp hx] at hax hne
          rcases List.mem_append.mp hy with hy | hy
          · exact hne (h1 a hax y.urn ((h a y.urn).mpr ⟨y, hy, hay, rfl⟩)).symm
          · rw [List.mem_singleton.mp hy] at hne; exact hne rfl
      have := ih (seen ++ [s]) m' hok hna
      simpa using this

theorem aliasMap_top (rs : List State) :
    match aliasMap rs [] with
    | some m => MapOk rs m ∧ ¬ Ambiguous rs
    | none => Ambiguous rs := by
  have := aliasMap_spec rs [] [] (by intro a v; simp [lookup]) (by rintro ⟨x, hx, _⟩; simp at hx)
  simpa using this

theorem fixUrn_renamed {rs : List State} {m : List (String × String)} (h : MapOk rs m) (u : String) :
    Renamed rs u (fixUrn m u) := by
  unfold fixUrn
  cases hl : lookup m u with
  | some v =>
    have ⟨x, hx, hu, hv⟩ := (h u v).mp hl
    exact Or.inl ⟨x, hx, hu, hv.symm⟩
  | none =>
    refine Or.inr ⟨fun x hx hu => ?_, rfl⟩
    have := (h u x.urn).mpr ⟨x, hx, hu, rfl⟩
    rw [hl] at this
    simp at this

/-- The provider of the resource, named anew, is not one. -/
def BadProvider (E : Env) (rs : List State) (s : State) : Prop :=
  (∃ m, s.provider = .malformed m) ∨ (∃ r v, s.provider = .ref r ∧ Renamed rs r.urn v ∧ E.validProviderUrn v = false)

theorem renamed_unique {rs : List State} (hna : ¬ Ambiguous rs) {u v w : String} (h1 : Renamed rs u v)
    (h2 : Renamed rs u w) : v = w := by
  rcases h1 with ⟨x, hx, hxu, rfl⟩ | ⟨h1, rfl⟩
  · rcases h2 with ⟨y, hy, hyu, rfl⟩ | ⟨h2, _⟩
    · by_cases he : x.urn = y.urn
      · exact he
      · exact absurd ⟨x, hx, y, hy, u, hxu, hyu, he⟩ hna
    · exact absurd hxu (h2 x hx)
  · rcases h2 with ⟨y, hy, hyu, rfl⟩ | ⟨_, rfl⟩
    · exact absurd hyu (h1 y hy)
    · rfl

theorem fixResource_spec {E : Env} {m : List (String × String)} (s : State) :
    (fixResource E m s = .ok (withReferences (fixUrn m) s) ∧
      (∀ x, s.provider ≠ .malformed x) ∧ (∀ r, s.provider = .ref r → E.validProviderUrn (fixUrn m r.urn) = true)) ∨
    (fixResource E m s = .error .assertion ∧
      ((∃ x, s.provider = .malformed x) ∨ ∃ r, s.provider = .ref r ∧ E.validProviderUrn (fixUrn m r.urn) = false)) := by
  cases hp : s.provider with
  | none => left; simp [fixResource, withReferences, fixProvider, hp]
  | malformed x => right; simp [fixResource, fixProvider, hp]
  | ref r =>
    cases hv : E.validProviderUrn (fixUrn m r.urn) with
    | true => left; simp [fixResource, withReferences, fixProvider, hp, hv]
    | false => right; simp [fixResource, fixProvider, hp, hv]

theorem fixAll_spec {E : Env} {m : List (String × String)} : ∀ ss : List State,
    (fixAll E m ss = .ok (ss.map (withReferences (fixUrn m))) ∧ ∀ s ∈ ss,
      (∀ x, s.provider ≠ .malformed x) ∧ (∀ r, s.provider = .ref r → E.validProviderUrn (fixUrn m r.urn) = true)) ∨
    (fixAll E m ss = .error .assertion ∧ ∃ s ∈ ss,
      ((∃ x, s.provider = .malformed x) ∨ ∃ r, s.provider = .ref r ∧ E.validProviderUrn (fixUrn m r.urn) = false)) := by
  intro ss
  induction ss with
  | nil => left; simp [fixAll]
  | cons s ss ih =>
    rcases fixResource_spec (E := E) (m := m) s with ⟨h1, h2⟩ | ⟨h1, h2⟩
    · rcases ih with ⟨h3, h4⟩ | ⟨h3, s', hs', h4⟩
      · left
        refine ⟨by simp [fixAll, h1, h3], ?_⟩
        intro x hx
        rcases List.mem_cons.mp hx with rfl | hx
        · exact h2
        · exact h4 x hx
      · right
        exact ⟨by simp [fixAll, h1, h3], s', List.mem_cons_of_mem _ hs', h4⟩
    · right
      exact ⟨by simp [fixAll, h1], s, by simp, h2⟩

/-- C139. When a checkpoint is saved, every reference in it to an alias of a listed resource (as parent, dependency,
property dependency or provider) becomes one to the URN of that resource, all other references stay, and nothing else of
the resources changes. -/
theorem normalize_renames {E : Env} {s t : Snap} (h : normalize E s = .ok t) :
    ∃ g, (∀ u, Renamed s.resources u (g u)) ∧ t = { s with resources := s.resources.map (withReferences g) } := by
  unfold normalize at h
  have hm := aliasMap_top s.resources
  cases ha : aliasMap s.resources [] with
  | none => rw [ha] at h; simp at h
  | some m =>
    rw [ha] at h hm
    simp only at h hm
    rcases fixAll_spec (E := E) (m := m) s.resources with ⟨h1, _⟩ | ⟨h1, _⟩
    · rw [h1] at h
      simp only [Except.ok.injEq] at h
      exact ⟨fixUrn m, fixUrn_renamed hm.1, h.symm⟩
    · rw [h1] at h; simp at h

/-- C139. Saving fails before anything is written exactly if two resources of different URNs share an alias, or if a
resource's provider is not, or is no longer, a reference to one. -/
theorem normalize_fails_iff {E : Env} {s : Snap} :
    (normalize E s = .error .sharedAlias ↔ Ambiguous s.resources) ∧
    (normalize E s = .error .assertion ↔ ¬ Ambiguous s.resources ∧ ∃ x ∈ s.resources, BadProvider E s.resources x) := by
  unfold normalize
  have hm := aliasMap_top s.resources
  cases ha : aliasMap s.resources [] with
  | none =>
    rw [ha] at hm
    simp only at hm ⊢
    simp [hm]
  | some m =>
    rw [ha] at hm
    simp only at hm ⊢
    rcases fixAll_spec (E := E) (m := m) s.resources with ⟨h1, h2⟩ | ⟨h1, x, hx, h2⟩
    · rw [h1]
      simp only [reduceCtorEq, false_iff]
      refine ⟨hm.2, ?_⟩
      rintro ⟨_, x, hx, ⟨y, hb⟩ | ⟨r, v, hb, hr, hv⟩⟩
      · exact (h2 x hx).1 y hb
      · have := (h2 x hx).2 r hb
        rw [renamed_unique hm.2 (fixUrn_renamed hm.1 r.urn) hr, hv] at this
        exact absurd this (by simp)
    · rw [h1]
      simp only [Except.error.injEq, reduceCtorEq, false_iff, true_iff]
      refine ⟨hm.2, hm.2, x, hx, ?_⟩
      rcases h2 with h2 | ⟨r, hb, hv⟩
      · exact Or.inl h2
      · exact Or.inr ⟨r, fixUrn m r.urn, hb, fixUrn_renamed hm.1 r.urn, hv⟩

/-- No URN of a listed resource is an alias of a listed one. -/
def AliasesRetired (rs : List State) : Prop := ∀ x ∈ rs, ∀ y ∈ rs, x.urn ∉ y.aliases

theorem withReferences_twice {g : String → String} (hg : ∀ u, g (g u) = g u) (x : State) :
    withReferences g (withReferences g x) = withReferences g x := by
  have hcomp : g ∘ g = g := funext hg
  have hp : (withReferences g (withReferences g x)).parent = (withReferences g x).parent := by
    simp only [withReferences]
    by_cases h0 : x.parent = ""
    · simp [h0]
    · simp only [h0, if_false]
      by_cases h5 : g x.parent = ""
      · rw [if_pos h5, h5]
      · rw [if_neg h5, hg]
  have hd : (withReferences g (withReferences g x)).deps = (withReferences g x).deps := by
    simp [withReferences, hcomp]
  have hpd : (withReferences g (withReferences g x)).propDeps = (withReferences g x).propDeps := by
    simp [withReferences, Function.comp_def, hg]
  have hpr : (withReferences g (withReferences g x)).provider = (withReferences g x).provider := by
    simp only [withReferences]
    cases x.provider <;> simp [hg]
  generalize hy : withReferences g x = y at *
  have h : ∀ z : State, z.parent = y.parent → z.deps = y.deps → z.propDeps = y.propDeps → z.provider = y.provider →
      { z with parent := "", deps := [], propDeps := [], provider := .none } =
        { y with parent := "", deps := [], propDeps := [], provider := .none } → z = y := by
    intro z h1 h2 h3 h4 h5
    cases z; cases y
    simp_all
  exact h _ hp hd hpd hpr rfl

/-- C139. As long as no former name is in use again, references to listed resources stay as they are, and saving what has
been saved changes nothing. The full claim has no such proviso; `reused_name_redirects` shows that it needs it. -/
theorem normalize_settles_partial {E : Env} {s t : Snap} (hr : AliasesRetired s.resources) (h : normalize E s = .ok t) :
    normalize E t = .ok t ∧
    (∀ x ∈ s.resources, ∀ v, Renamed s.resources x.urn v → v = x.urn) := by
  have hm := aliasMap_top s.resources
  unfold normalize at h
  cases ha : aliasMap s.resources [] with
  | none => rw [ha] at h; simp at h
  | some m =>
    rw [ha] at h hm
    simp only at h hm
    rcases fixAll_spec (E := E) (m := m) s.resources with ⟨h1, h2⟩ | ⟨h1, _⟩
    · rw [h1] at h
      simp only [Except.ok.injEq] at h
      have hkeep : ∀ x ∈ s.resources, ∀ v, Renamed s.resources x.urn v → v = x.urn := by
        intro x hx v hv
        rcases hv with ⟨y, hy, hu, _⟩ | ⟨_, rfl⟩
        · exact absurd hu (hr x hx y hy)
        · rfl
      refine ⟨?_, hkeep⟩
      have hidem : ∀ u, fixUrn m (fixUrn m u) = fixUrn m u := by
        intro u
        rcases fixUrn_renamed hm.1 u with ⟨x, hx, _, hv⟩ | ⟨_, hv⟩
        · rw [hv]; exact hkeep x hx _ (fixUrn_renamed hm.1 x.urn)
        · rw [hv, hv]
      have hmap : aliasMap t.resources [] = some m := by
        have : ∀ (l : List State) (g : String → String) m0, aliasMap (l.map (withReferences g)) m0 = aliasMap l m0 := by
          intro l g
          induction l with
          | nil => intro _; rfl
          | cons x l ih =>
            intro m0
            simp only [List.map_cons, aliasMap, withReferences]
            split <;> simp_all
        rw [← h]; simp only; rw [this]; exact ha
      have hfix : fixAll E m t.resources = .ok t.resources := by
        rcases fixAll_spec (E := E) (m := m) t.resources with ⟨h3, _⟩ | ⟨_, x, hx, h4⟩
        · rw [h3]
          rw [← h]
          simp only [List.map_map, Except.ok.injEq]
          refine List.map_congr_left (fun x _ => ?_)
          exact withReferences_twice hidem x
        · exfalso
          rw [← h] at hx
          have ⟨y, hy, hxy⟩ := List.mem_map.mp hx
          subst hxy
          have ⟨h5, h6⟩ := h2 y hy
          simp only [withReferences] at h4
          cases hpy : y.provider with
          | none => rw [hpy] at h4; simp at h4
          | malformed z => exact h5 z hpy
          | ref r =>
            rw [hpy] at h4
            rcases h4 with ⟨z, hz⟩ | ⟨r', hr', hv⟩
            · simp at hz
            · simp only [Provider.ref.injEq] at hr'
              subst hr'
              rw [hidem, h6 r hpy] at hv
              simp at hv
      unfold normalize
      rw [hmap]
      simp only
      rw [hfix]
    · rw [h1] at h; simp at h

/-- `c` was called `b`, and now something else is, which was called `a`; `d` depends on it by that name. -/
def renamedTwice : List State :=
  [{ plain "c" with aliases := ["b"] }, { plain "b" with aliases := ["a"] }, { plain "d" with deps := ["b"] }]

/-- `b` was called `a`, and `d` still knows it by that name, as its provider and otherwise. -/
def renamedOnce : List State :=
  [{ plain "b" with aliases := ["a"], type := "provider", id := "1" },
   { plain "d" with deps := ["a"], parent := "a", provider := .ref ⟨"a", "1"⟩, propDeps := [("x", ["a", "b"])] }]

example : AliasesRetired renamedOnce ∧ normalize oneProvider ⟨renamedOnce, []⟩ = .ok ⟨[{ plain "b" with aliases := ["a"], type := "provider", id := "1" },
    { plain "d" with deps := ["b"], parent := "b", provider := .ref ⟨"b", "1"⟩, propDeps := [("x", ["b", "b"])] }], []⟩ :=
  ⟨by unfold AliasesRetired; decide, by decide⟩

example : Ambiguous [{ plain "b" with aliases := ["a"] }, { plain "c" with aliases := ["a"] }] :=
  ⟨_, List.mem_cons_self .., _, List.mem_cons_of_mem _ (List.mem_cons_self ..), "a", by decide, by decide, by decide⟩

/-- C139. A resource that depends on one that was given the former name of another is recorded, in an intact checkpoint
that the next update accepts, as depending on the other one. -/
theorem reused_name_redirects : ∃ s t : Snap, ∃ x ∈ s.resources, ∃ y ∈ t.resources,
    Intact plainEnv s.resources ∧ normalize plainEnv s = .ok t ∧ Intact plainEnv t.resources ∧
    x.urn = "d" ∧ x.deps = ["b"] ∧ (∃ z ∈ s.resources, z.urn = "b") ∧ y.urn = "d" ∧ y.deps = ["c"] :=
  ⟨⟨renamedTwice, []⟩, ⟨[{ plain "c" with aliases := ["b"] }, { plain "b" with aliases := ["a"] },
      { plain "d" with deps := ["c"] }], []⟩, { plain "d" with deps := ["b"] }, by decide, { plain "d" with deps := ["c"] },
    by decide, (verify_iff_intact plainEnv ⟨renamedTwice, []⟩).mp (by decide), by decide,
    (verify_iff_intact plainEnv ⟨[{ plain "c" with aliases := ["b"] }, { plain "b" with aliases := ["a"] },
      { plain "d" with deps := ["c"] }], []⟩).mp (by decide), rfl, rfl, ⟨_, List.mem_cons_of_mem _ (List.mem_cons_self ..), rfl⟩, rfl, rfl⟩

end Pulumi.Snapshot
