import Verif.Snapshot.IntegritySpec
import Verif.Snapshot.CrashRun
/-! Lemmas on intact checkpoints. -/
namespace Pulumi.Snapshot

/-- Intactness along the list. -/
def IntactFrom (E : Env) : List State → List State → Prop
  | _, [] => True
  | b, s :: rest => Backed E b s ∧ IntactFrom E (b ++ [s]) rest

theorem intactFrom_iff (E : Env) (l : List State) : ∀ b, IntactFrom E b l ↔
    ∀ pre s post, l = pre ++ s :: post → Backed E (b ++ pre) s := by
  induction l with
  | nil => intro b; simp [IntactFrom]
  | cons x xs ih =>
    intro b
    simp only [IntactFrom, ih]
    constructor
    · rintro ⟨h1, h2⟩ pre s post he
      cases pre with
      | nil => simp only [List.nil_append, List.cons.injEq] at he; rw [← he.1]; simpa using h1
      | cons p pre =>
        simp only [List.cons_append, List.cons.injEq] at he
        have := h2 pre s post he.2
        rw [he.1] at this
        simpa using this
    · intro h
      refine ⟨by simpa using h [] x xs rfl, fun pre s post he => ?_⟩
      have := h (x :: pre) s post (by rw [he]; rfl)
      simpa using this

theorem intact_iff (E : Env) (l : List State) : Intact E l ↔ IntactFrom E [] l := by
  rw [intactFrom_iff]
  simp [Intact]

/-- The checks agree with the specification, whatever lists of URNs and providers stand for the resources seen. -/
theorem verifyFrom_iff (E : Env) (l : List State) : ∀ (urns : List String) (provs : List Ref) (b : List State),
    (∀ u, u ∈ urns ↔ ∃ x ∈ b, x.urn = u) → (∀ r, r ∈ provs ↔ ∃ x ∈ b, Provides E x r) →
    (verifyFrom E urns provs l = .ok () ↔ IntactFrom E b l) := by
  induction l with
  | nil => intros; simp [verifyFrom, IntactFrom]
  | cons s rest ih =>
    intro urns provs b hu hp
    have hu' : ∀ u, u ∈ s.urn :: urns ↔ ∃ x ∈ b ++ [s], x.urn = u := by
      intro u
      simp only [List.mem_cons, hu, List.mem_append]
      constructor
      · rintro (rfl | ⟨x, hx, rfl⟩)
        · exact ⟨s, Or.inr (by simp), rfl⟩
        · exact ⟨x, Or.inl hx, rfl⟩
      · rintro ⟨x, hx | hx, rfl⟩
        · exact Or.inr ⟨x, hx, rfl⟩
        · simp at hx; subst hx; exact Or.inl rfl
    simp only [verifyFrom, IntactFrom]
    -- the provider the resource itself may be
    have hadd : ∀ provs', addProvider E s provs = .ok provs' ↔
        (E.isProviderType s.type = true → E.validProviderUrn s.urn = true) ∧
        provs' = if E.isProviderType s.type = true then ⟨s.urn, s.id⟩ :: provs else provs := by
      intro provs'
      unfold addProvider
      by_cases h1 : E.isProviderType s.type = true
      · by_cases h2 : E.validProviderUrn s.urn = true
        · simp only [h1, h2, if_true, Except.ok.injEq]
          simp [eq_comm]
        · simp [h1, h2]
      · simp only [h1, Bool.false_eq_true, if_false, Except.ok.injEq, false_implies, true_and, eq_comm]
    have hp' : ∀ r, r ∈ (if E.isProviderType s.type = true then ⟨s.urn, s.id⟩ :: provs else provs) ↔
        ∃ x ∈ b ++ [s], Provides E x r := by
      intro r
      have hsplit : (∃ x ∈ b ++ [s], Provides E x r) ↔ (∃ x ∈ b, Provides E x r) ∨ Provides E s r := by
        constructor
        · rintro ⟨x, hx, h⟩
          rcases List.mem_append.mp hx with hx | hx
          · exact Or.inl ⟨x, hx, h⟩
          · simp at hx; subst hx; exact Or.inr h
        · rintro (⟨x, hx, h⟩ | h)
          · exact ⟨x, List.mem_append_left _ hx, h⟩
          · exact ⟨s, by simp, h⟩
      rw [hsplit, ← hp]
      split
      · rename_i h1
        simp only [List.mem_cons]
        constructor
        · rintro (rfl | h)
          · exact Or.inr ⟨h1, rfl, rfl⟩
          · exact Or.inl h
        · rintro (h | ⟨_, h2, h3⟩)
          · exact Or.inr h
          · left; cases r; simp_all
      · rename_i h1
        constructor
        · exact Or.inl
        · rintro (h | ⟨h2, _⟩)
          · exact h
          · exact absurd h2 h1
    have hpar : ∀ later, checkParent urns later s.parent = .ok () ↔
        (s.parent = "" ∨ ∃ x ∈ b, x.urn = s.parent) := by
      intro later
      unfold checkParent
      by_cases h1 : s.parent = ""
      · simp [h1]
      · by_cases h2 : s.parent ∈ urns
        · simp only [h1, h2, if_true, if_false, false_or, true_iff]; exact (hu _).mp h2
        · simp only [h1, h2, if_false, false_or]
          have : ¬ ∃ x ∈ b, x.urn = s.parent := fun h => h2 ((hu _).mpr h)
          simp only [this, iff_false]
          split <;> simp
    have hdep : ∀ later ds, checkDeps urns later ds = .ok () ↔ ∀ d ∈ ds, ∃ x ∈ b, x.urn = d := by
      intro later ds
      induction ds with
      | nil => simp [checkDeps]
      | cons d ds ihd =>
        simp only [checkDeps, List.forall_mem_cons]
        by_cases h : d ∈ urns
        · rw [if_pos h, ihd]
          exact ⟨fun h' => ⟨(hu _).mp h, h'⟩, fun h' => h'.2⟩
        · rw [if_neg h]
          have : ¬ ∃ x ∈ b, x.urn = d := fun h' => h ((hu _).mpr h')
          simp only [this, false_and, iff_false]
          split <;> simp
    have hurn : checkUrn urns s = .ok () ↔ (s.delete = true ∨ ∀ x ∈ b, x.urn ≠ s.urn) := by
      unfold checkUrn
      by_cases h1 : s.urn ∈ urns
      · have ⟨x, hx, he⟩ := (hu _).mp h1
        cases hd : s.delete
        · simp only [h1, and_self, if_true, reduceCtorEq, Bool.false_eq_true, false_or, false_iff]
          exact fun h => h x hx he
        · simp
      · simp only [h1, false_and, if_false, true_iff]
        exact Or.inr (fun x hx he => h1 ((hu _).mpr ⟨x, hx, he⟩))
    have hprov : ∀ provs', (∀ r, r ∈ provs' ↔ ∃ x ∈ b ++ [s], Provides E x r) →
        (checkProvider provs' s.provider = .ok () ↔
          (s.provider = .none ∨ ∃ r, s.provider = .ref r ∧ ∃ x ∈ b ++ [s], Provides E x r)) := by
      intro provs' h
      cases hs : s.provider with
      | none => simp [checkProvider]
      | malformed m => simp [checkProvider]
      | ref r =>
        simp only [checkProvider, reduceCtorEq, Provider.ref.injEq, false_or]
        by_cases hr : r ∈ provs'
        · rw [if_pos hr]
          simp only [true_iff]
          exact ⟨r, rfl, (h r).mp hr⟩
        · rw [if_neg hr]
          simp only [reduceCtorEq, false_iff]
          rintro ⟨r', rfl, h'⟩
          exact hr ((h r).mpr h')
    -- put together
    cases ha : addProvider E s provs with
    | error e =>
      simp only [reduceCtorEq, false_iff]
      rintro ⟨hb, _⟩
      have := (hadd _).mpr ⟨hb.referenceable, rfl⟩
      rw [ha] at this
      exact absurd this (by simp)
    | ok provs' =>
      have ⟨h1, h2⟩ := (hadd provs').mp ha
      have hp2 : ∀ r, r ∈ provs' ↔ ∃ x ∈ b ++ [s], Provides E x r := by rw [h2]; exact hp'
      simp only
      cases hc : checkProvider provs' s.provider with
      | error e =>
        simp only [reduceCtorEq, false_iff]
        rintro ⟨hb, _⟩
        have := (hprov provs' hp2).mpr hb.provider
        rw [hc] at this
        exact absurd this (by simp)
      | ok _ =>
        simp only
        cases hpa : checkParent urns rest s.parent with
        | error e =>
          simp only [reduceCtorEq, false_iff]
          rintro ⟨hb, _⟩
          have := (hpar rest).mpr hb.parent
          rw [hpa] at this
          exact absurd this (by simp)
        | ok _ =>
          simp only
          cases hde : checkDeps urns rest s.deps with
          | error e =>
            simp only [reduceCtorEq, false_iff]
            rintro ⟨hb, _⟩
            have := (hdep rest s.deps).mpr hb.deps
            rw [hde] at this
            exact absurd this (by simp)
          | ok _ =>
            simp only
            cases hur : checkUrn urns s with
            | error e =>
              simp only [reduceCtorEq, false_iff]
              rintro ⟨hb, _⟩
              have := hurn.mpr hb.unique
              rw [hur] at this
              exact absurd this (by simp)
            | ok _ =>
              simp only
              rw [ih _ _ _ hu' hp2]
              constructor
              · exact fun h => ⟨⟨h1, (hprov provs' hp2).mp hc, (hpar rest).mp hpa, (hdep rest s.deps).mp hde,
                  hurn.mp hur⟩, h⟩
              · exact fun h => h.2

theorem verify_ok_iff (E : Env) (s : Snap) : verify E s = .ok () ↔ Intact E s.resources := by
  rw [intact_iff]
  exact verifyFrom_iff E s.resources [] [] [] (by simp) (by simp)

/-! ## Changing an intact list -/

theorem intactFrom_append (E : Env) (l₁ l₂ : List State) : ∀ b, IntactFrom E b (l₁ ++ l₂) ↔
    IntactFrom E b l₁ ∧ IntactFrom E (b ++ l₁) l₂ := by
  induction l₁ with
  | nil => intro b; simp [IntactFrom]
  | cons x xs ih =>
    intro b
    simp only [List.cons_append, IntactFrom, ih, and_assoc, List.append_assoc, List.nil_append]

/-- No resource before a live one has its URN. -/
theorem live_first {E : Env} {l : List State} : ∀ {b : List State}, IntactFrom E b l → ∀ z ∈ l, z.delete = false →
    ∀ x ∈ b, x.urn ≠ z.urn := by
  induction l with
  | nil => intro _ _ z hz; simp at hz
  | cons y ys ih =>
    intro b h z hz hd x hx
    rcases List.mem_cons.mp hz with rfl | hz
    · rcases h.1.unique with hu | hu
      · rw [hd] at hu; exact absurd hu (by simp)
      · exact hu x hx
    · exact ih h.2 z hz hd x (List.mem_append_left _ hx)

/-- States are dropped from the end of an intact list of which the beginning stays, and others put in between: the list is
intact again if what is put there is backed, nothing live after it has its URN, and what the dropped states stood for is
still there. -/
theorem intact_change {E : Env} {h : Heap} {R B N : List Ptr} {keep : Ptr → Bool}
    (hi : IntactFrom E [] ((R ++ B).map h)) (hN : IntactFrom E (R.map h) (N.map h))
    (hurn : ∀ q ∈ B, keep q = true → (h q).delete = true ∨ ∀ n ∈ N, (h n).urn ≠ (h q).urn)
    (href : ∀ q ∈ B, keep q = true → ∀ y ∈ B, keep y = false →
      (h q).parent = (h y).urn ∨ (h y).urn ∈ (h q).deps →
      (∃ z ∈ R ++ N, (h z).urn = (h y).urn) ∨
      (∃ z ∈ B, keep z = true ∧ (h z).delete = false ∧ (h z).urn = (h y).urn))
    (hprov : ∀ q ∈ B, keep q = true → ∀ r, (h q).provider = .ref r → ∀ y ∈ B, keep y = false → Provides E (h y) r →
      ∃ z ∈ R ++ N, Provides E (h z) r) :
    IntactFrom E [] ((R ++ N ++ B.filter keep).map h) := by
  rw [List.map_append, intactFrom_append] at hi
  obtain ⟨hR, hB⟩ := hi
  rw [List.map_append, intactFrom_append, List.map_append, intactFrom_append]
  refine ⟨⟨hR, by simpa using hN⟩, ?_⟩
  simp only [List.nil_append] at hB ⊢
  have key : ∀ (L P : List Ptr), B = P ++ L → IntactFrom E ((R ++ P).map h) (L.map h) →
      IntactFrom E ((R ++ N ++ P.filter keep).map h) ((L.filter keep).map h) := by
    intro L
    induction L with
    | nil => intros; trivial
    | cons q L ih =>
      intro P he hin
      have hq : q ∈ B := by rw [he]; simp
      have hnext := ih (P ++ [q]) (by rw [he]; simp) (by simpa using hin.2)
      cases hk : keep q with
      | false =>
        simp only [List.filter_cons, hk, Bool.false_eq_true, if_false]
        simpa [List.filter_append, hk] using hnext
      | true =>
        simp only [List.filter_cons, hk, if_true, List.map_cons, IntactFrom]
        refine ⟨?_, by simpa [List.filter_append, hk] using hnext⟩
        have hb := hin.1
        have hfind : ∀ u, (h q).parent = u ∨ u ∈ (h q).deps → (∃ x ∈ (R ++ P).map h, x.urn = u) →
            ∃ x ∈ (R ++ N ++ P.filter keep).map h, x.urn = u := by
          rintro u hu ⟨x, hx, rfl⟩
          have ⟨y, hy, hxy⟩ := List.mem_map.mp hx
          subst hxy
          rcases List.mem_append.mp hy with hy | hy
          · exact ⟨h y, List.mem_map.mpr ⟨y, by simp [hy], rfl⟩, rfl⟩
          · cases hky : keep y with
            | true => exact ⟨h y, List.mem_map.mpr ⟨y, by simp [hy, hky], rfl⟩, rfl⟩
            | false =>
              rcases href q hq hk y (by rw [he]; simp [hy]) hky hu with ⟨z, hz, hzu⟩ | ⟨z, hz, hkz, hd, hzu⟩
              · exact ⟨h z, List.mem_map.mpr ⟨z, List.mem_append_left _ hz, rfl⟩, hzu⟩
              · rw [he] at hz
                rcases List.mem_append.mp hz with hz | hz
                · exact ⟨h z, List.mem_map.mpr ⟨z, List.mem_append_right _ (List.mem_filter.mpr ⟨hz, hkz⟩), rfl⟩, hzu⟩
                · exact absurd hzu.symm (live_first hin (h z) (List.mem_map.mpr ⟨z, hz, rfl⟩) hd (h y)
                    (List.mem_map.mpr ⟨y, by simp [hy], rfl⟩))
        refine ⟨hb.referenceable, ?_, ?_, ?_, ?_⟩
        · rcases hb.provider with h0 | ⟨r, h1, x, hx, hp⟩
          · exact Or.inl h0
          · refine Or.inr ⟨r, h1, ?_⟩
            rcases List.mem_append.mp hx with hx | hx
            · have ⟨y, hy, hxy⟩ := List.mem_map.mp hx
              subst hxy
              rcases List.mem_append.mp hy with hy | hy
              · exact ⟨h y, List.mem_append_left _ (List.mem_map.mpr ⟨y, by simp [hy], rfl⟩), hp⟩
              · cases hky : keep y with
                | true => exact ⟨h y, List.mem_append_left _ (List.mem_map.mpr ⟨y, by simp [hy, hky], rfl⟩), hp⟩
                | false =>
                  have ⟨z, hz, hzp⟩ := hprov q hq hk r h1 y (by rw [he]; simp [hy]) hky hp
                  exact ⟨h z, List.mem_append_left _ (List.mem_map.mpr ⟨z, List.mem_append_left _ hz, rfl⟩), hzp⟩
            · exact ⟨x, List.mem_append_right _ hx, hp⟩
        · rcases hb.parent with h0 | h0
          · exact Or.inl h0
          · exact Or.inr (hfind _ (Or.inl rfl) h0)
        · exact fun d hd => hfind d (Or.inr hd) (hb.deps d hd)
        · rcases hb.unique with h0 | h0
          · exact Or.inl h0
          · rcases hurn q hq hk with h2 | h2
            · exact Or.inl h2
            · refine Or.inr (fun x hx => ?_)
              have ⟨y, hy, hxy⟩ := List.mem_map.mp hx
              subst hxy
              simp only [List.mem_append, List.mem_filter] at hy
              rcases hy with (hy | hy) | hy
              · exact h0 _ (List.mem_map.mpr ⟨y, by simp [hy], rfl⟩)
              · exact h2 y hy
              · exact h0 _ (List.mem_map.mpr ⟨y, by simp [hy.1], rfl⟩)
  have := key B [] rfl (by simpa using hB)
  simpa using this

/-- What is checked of a state: nothing else matters. -/
structure SameCore (x y : State) : Prop where
  type : x.type = y.type
  urn : x.urn = y.urn
  id : x.id = y.id
  parent : x.parent = y.parent
  deps : x.deps = y.deps
  provider : x.provider = y.provider

theorem SameCore.refl (x : State) : SameCore x x := ⟨rfl, rfl, rfl, rfl, rfl, rfl⟩

theorem backed_core {E : Env} {α : Type} {f g : α → State} {b : List α} {q : α}
    (hc : ∀ x ∈ b ++ [q], SameCore (g x) (f x)) (hd : (f q).delete = true → (g q).delete = true)
    (h : Backed E (b.map f) (f q)) : Backed E (b.map g) (g q) := by
  have hq := hc q (by simp)
  have hu : ∀ u, (∃ x ∈ b.map f, x.urn = u) → ∃ x ∈ b.map g, x.urn = u := by
    rintro u ⟨x, hx, rfl⟩
    have ⟨y, hy, hxy⟩ := List.mem_map.mp hx
    subst hxy
    exact ⟨g y, List.mem_map.mpr ⟨y, hy, rfl⟩, (hc y (by simp [hy])).urn⟩
  refine ⟨?_, ?_, ?_, ?_, ?_⟩
  · rw [hq.type, hq.urn]; exact h.referenceable
  · rw [hq.provider]
    rcases h.provider with h0 | ⟨r, h1, x, hx, h2, h3, h4⟩
    · exact Or.inl h0
    · refine Or.inr ⟨r, h1, ?_⟩
      have hx' : x ∈ (b ++ [q]).map f := by simpa using hx
      have ⟨y, hy, hxy⟩ := List.mem_map.mp hx'
      subst hxy
      have hy' := hc y hy
      exact ⟨g y, by simpa using List.mem_map.mpr ⟨y, hy, rfl⟩, by rw [hy'.type]; exact h2, hy'.urn.trans h3,
        hy'.id.trans h4⟩
  · rw [hq.parent]
    rcases h.parent with h0 | h0
    · exact Or.inl h0
    · exact Or.inr (hu _ h0)
  · rw [hq.deps]; exact fun d hd => hu d (h.deps d hd)
  · rcases h.unique with h0 | h0
    · exact Or.inl (hd h0)
    · refine Or.inr (fun x hx => ?_)
      have ⟨y, hy, hxy⟩ := List.mem_map.mp hx
      subst hxy
      rw [(hc y (by simp [hy])).urn, hq.urn]
      exact h0 _ (List.mem_map.mpr ⟨y, hy, rfl⟩)

theorem intact_core {E : Env} {α : Type} {f g : α → State} : ∀ {l b : List α},
    (∀ x ∈ b ++ l, SameCore (g x) (f x)) → (∀ x ∈ l, (f x).delete = true → (g x).delete = true) →
    IntactFrom E (b.map f) (l.map f) → IntactFrom E (b.map g) (l.map g) := by
  intro l
  induction l with
  | nil => intros; trivial
  | cons q l ih =>
    intro b hc hd h
    refine ⟨backed_core (fun x hx => hc x ?_) (hd q (by simp)) h.1, ?_⟩
    · rcases List.mem_append.mp hx with hx | hx
      · exact List.mem_append_left _ hx
      · rw [List.mem_singleton.mp hx]; simp
    · have := ih (b := b ++ [q]) (fun x hx => hc x (by simpa using hx)) (fun x hx => hd x (List.mem_cons_of_mem _ hx))
        (by simpa using h.2)
      simpa using this

/-! ## Rebuilding the base -/

/-- `rebuildList` on states. -/
def keepDeps : List String → List State → List State
  | _, [] => []
  | seen, s :: ss => { s with deps := s.deps.filter (fun d => d ∈ seen) } :: keepDeps (s.urn :: seen) ss

/-- `undangle` on states. -/
def reparent (u : List String) : List (String × String) → List State → List State
  | _, [] => []
  | parents, s :: ss =>
    let p := if s.parent ∈ u then s.parent else (lookup parents s.parent).getD ""
    { s with parent := p } :: reparent u ((s.urn, p) :: parents) ss

theorem rebuildList_other (f : Ptr → Option Ptr) (ps : List Ptr) : ∀ (h : Heap) (seen : List String) (q : Ptr),
    q ∉ ps.filterMap f → (rebuildList f h seen ps).1 q = h q := by
  induction ps with
  | nil => intros; rfl
  | cons p ps ih =>
    intro h seen q hq
    simp only [rebuildList]
    cases hf : f p with
    | none =>
      simp only [List.filterMap_cons, hf] at hq
      exact ih h seen q hq
    | some r =>
      simp only [List.filterMap_cons, hf, List.mem_cons, not_or] at hq
      simp only
      rw [ih _ _ q hq.2, Heap.set_other _ _ hq.1]

theorem rebuildList_states (f : Ptr → Option Ptr) (ps : List Ptr) : ∀ (h : Heap) (seen : List String),
    (ps.filterMap f).Nodup →
    (ps.filterMap f).map (rebuildList f h seen ps).1 = keepDeps seen ((ps.filterMap f).map h) := by
  induction ps with
  | nil => intros; rfl
  | cons p ps ih =>
    intro h seen hn
    cases hf : f p with
    | none =>
      simp only [List.filterMap_cons, hf, rebuildList] at hn ⊢
      exact ih h seen hn
    | some r =>
      simp only [List.filterMap_cons, hf, rebuildList, List.map_cons, keepDeps] at hn ⊢
      have ⟨hr, hn'⟩ := List.nodup_cons.mp hn
      rw [ih _ _ hn', rebuildList_other _ _ _ _ _ hr, Heap.set_same]
      congr 1
      congr 1
      refine List.map_congr_left (fun q hq => Heap.set_other _ _ ?_)
      exact fun he => hr (he ▸ hq)

theorem undangle_other (u : List String) (ps : List Ptr) : ∀ (h : Heap) (parents : List (String × String)) (q : Ptr),
    q ∉ ps → undangle u h parents ps q = h q := by
  induction ps with
  | nil => intros; rfl
  | cons p ps ih =>
    intro h parents q hq
    simp only [List.mem_cons, not_or] at hq
    simp only [undangle]
    rw [ih _ _ q hq.2, Heap.set_other _ _ hq.1]

theorem undangle_states (u : List String) (ps : List Ptr) : ∀ (h : Heap) (parents : List (String × String)),
    ps.Nodup → ps.map (undangle u h parents ps) = reparent u parents (ps.map h) := by
  induction ps with
  | nil => intros; rfl
  | cons p ps ih =>
    intro h parents hn
    have ⟨hp, hn'⟩ := List.nodup_cons.mp hn
    simp only [undangle, List.map_cons, reparent]
    rw [ih _ _ hn', undangle_other _ _ _ _ _ hp, Heap.set_same]
    congr 1
    congr 1
    refine List.map_congr_left (fun q hq => Heap.set_other _ _ ?_)
    exact fun he => hp (he ▸ hq)

/-- What rebuilding makes of the states that stay. -/
def rebuilt (k : List State) : List State :=
  reparent (((keepDeps [] k).filter (fun s => s.delete = false)).map (·.urn)) [] (keepDeps [] k)

theorem rebuildBase_states (f : Ptr → Option Ptr) (h : Heap) (base : List Ptr) (hn : (base.filterMap f).Nodup) :
    (rebuildBase f h base).2.map (rebuildBase f h base).1 = rebuilt ((base.filterMap f).map h) := by
  simp only [rebuildBase, rebuildList_base, rebuilt]
  rw [undangle_states _ _ _ _ hn, ← rebuildList_states f base h [] hn]
  congr 1
  simp only [List.filter_map, List.map_map]
  rfl

/-- All that matters of the states before another one. -/
def ident (s : State) : String × String × String := (s.type, s.urn, s.id)

theorem ident_mem {b b' : List State} (h : b.map ident = b'.map ident) {x : State} (hx : x ∈ b) :
    ∃ y ∈ b', y.type = x.type ∧ y.urn = x.urn ∧ y.id = x.id := by
  have : ident x ∈ b'.map ident := h ▸ List.mem_map.mpr ⟨x, hx, rfl⟩
  have ⟨y, hy, he⟩ := List.mem_map.mp this
  simp only [ident, Prod.mk.injEq] at he
  exact ⟨y, hy, he.1, he.2.1, he.2.2⟩

theorem backed_before {E : Env} {b b' : List State} {s : State} (he : b.map ident = b'.map ident)
    (h : Backed E b s) : Backed E b' s := by
  have hu : ∀ u, (∃ x ∈ b, x.urn = u) → ∃ x ∈ b', x.urn = u := by
    rintro u ⟨x, hx, rfl⟩
    have ⟨y, hy, _, h2, _⟩ := ident_mem he hx
    exact ⟨y, hy, h2⟩
  refine ⟨h.referenceable, ?_, ?_, fun d hd => hu d (h.deps d hd), ?_⟩
  · rcases h.provider with h0 | ⟨r, h1, x, hx, hp⟩
    · exact Or.inl h0
    · refine Or.inr ⟨r, h1, ?_⟩
      rcases List.mem_append.mp hx with hx | hx
      · have ⟨y, hy, h2, h3, h4⟩ := ident_mem he hx
        exact ⟨y, List.mem_append_left _ hy, by rw [h2]; exact hp.1, h3.trans hp.2.1, h4.trans hp.2.2⟩
      · exact ⟨x, List.mem_append_right _ hx, hp⟩
  · rcases h.parent with h0 | h0
    · exact Or.inl h0
    · exact Or.inr (hu _ h0)
  · rcases h.unique with h0 | h0
    · exact Or.inl h0
    · refine Or.inr (fun x hx => ?_)
      have ⟨y, hy, _, h2, _⟩ := ident_mem he.symm hx
      rw [← h2]; exact h0 y hy

theorem intactFrom_before {E : Env} : ∀ {l b b' : List State}, b.map ident = b'.map ident → IntactFrom E b l →
    IntactFrom E b' l := by
  intro l
  induction l with
  | nil => intros; trivial
  | cons s l ih =>
    intro b b' he h
    exact ⟨backed_before he h.1, ih (by simp [he]) h.2⟩

def blank (s : State) : State := { s with parent := "" }

/-- Dropping states and the dependencies on them leaves everything intact but for the parents. -/
theorem keepDeps_intact {E : Env} {l : List (State × Bool)}
    (hp : ∀ s ∈ l, s.2 = true → ∀ r, s.1.provider = .ref r → ∀ y ∈ l, Provides E y.1 r → y.2 = true) :
    ∀ (L P : List (State × Bool)) (seen : List String) (b : List State), l = P ++ L →
      IntactFrom E (P.map (·.1)) (L.map (·.1)) →
      (∀ u, u ∈ seen ↔ ∃ x ∈ b, x.urn = u) → (∀ x ∈ b, ∃ y ∈ P, y.1.urn = x.urn) →
      (∀ y ∈ P, y.2 = true → ∀ r, Provides E y.1 r → ∃ x ∈ b, Provides E x r) →
      IntactFrom E b ((keepDeps seen ((L.filter (·.2)).map (·.1))).map blank) := by
  intro L
  induction L with
  | nil => intros; trivial
  | cons s L ih =>
    intro P seen b he hi hs hb hpr
    cases hk : s.2 with
    | false =>
      simp only [List.filter_cons, hk, Bool.false_eq_true, if_false]
      refine ih (P ++ [s]) seen b (by rw [he]; simp) (by simpa using hi.2) hs ?_ ?_
      · intro x hx
        have ⟨y, hy, hu⟩ := hb x hx
        exact ⟨y, List.mem_append_left _ hy, hu⟩
      · intro y hy hy2
        rcases List.mem_append.mp hy with hy | hy
        · exact hpr y hy hy2
        · rw [List.mem_singleton.mp hy, hk] at hy2; exact absurd hy2 (by simp)
    | true =>
      simp only [List.filter_cons, hk, if_true, List.map_cons, keepDeps, IntactFrom]
      have hbk := hi.1
      refine ⟨⟨hbk.referenceable, ?_, Or.inl rfl, ?_, ?_⟩, ?_⟩
      · rcases hbk.provider with h0 | ⟨r, h1, x, hx, hx'⟩
        · exact Or.inl h0
        · refine Or.inr ⟨r, h1, ?_⟩
          rcases List.mem_append.mp hx with hx | hx
          · have ⟨y, hy, hxy⟩ := List.mem_map.mp hx
            subst hxy
            have hy2 := hp s (by rw [he]; simp) hk r h1 y (by rw [he]; simp [hy]) hx'
            have ⟨z, hz, hz'⟩ := hpr y hy hy2 r hx'
            exact ⟨z, List.mem_append_left _ hz, hz'⟩
          · rw [List.mem_singleton.mp hx] at hx'
            exact ⟨_, List.mem_append_right _ (List.mem_singleton.mpr rfl), hx'⟩
      · intro d hd
        simp only [blank, List.mem_filter, decide_eq_true_eq] at hd
        exact (hs d).mp hd.2
      · rcases hbk.unique with h0 | h0
        · exact Or.inl h0
        · refine Or.inr (fun x hx he' => ?_)
          have ⟨y, hy, hu⟩ := hb x hx
          exact h0 y.1 (List.mem_map.mpr ⟨y, hy, rfl⟩) (hu.trans he')
      · refine ih (P ++ [s]) (s.1.urn :: seen) _ (by rw [he]; simp) (by simpa using hi.2) ?_ ?_ ?_
        · intro u
          constructor
          · intro hu
            rcases List.mem_cons.mp hu with hu | hu
            · exact ⟨_, List.mem_append_right _ (List.mem_singleton.mpr rfl), hu.symm⟩
            · have ⟨x, hx, hxu⟩ := (hs u).mp hu
              exact ⟨x, List.mem_append_left _ hx, hxu⟩
          · rintro ⟨x, hx, hxu⟩
            rcases List.mem_append.mp hx with hx | hx
            · exact List.mem_cons_of_mem _ ((hs u).mpr ⟨x, hx, hxu⟩)
            · rw [List.mem_singleton.mp hx] at hxu
              exact List.mem_cons.mpr (Or.inl hxu.symm)
        · intro x hx
          rcases List.mem_append.mp hx with hx | hx
          · have ⟨y, hy, hu⟩ := hb x hx
            exact ⟨y, List.mem_append_left _ hy, hu⟩
          · rw [List.mem_singleton.mp hx]
            exact ⟨s, by simp, rfl⟩
        · intro y hy hy2 r hr
          rcases List.mem_append.mp hy with hy | hy
          · have ⟨z, hz, hz'⟩ := hpr y hy hy2 r hr
            exact ⟨z, List.mem_append_left _ hz, hz'⟩
          · rw [List.mem_singleton.mp hy] at hr
            exact ⟨_, List.mem_append_right _ (List.mem_singleton.mpr rfl), hr⟩

theorem lookup_mem {m : List (String × String)} {k v : String} (h : lookup m k = some v) : (k, v) ∈ m := by
  induction m with
  | nil => simp [lookup] at h
  | cons x m ih =>
    obtain ⟨k', v'⟩ := x
    simp only [lookup] at h
    split at h
    · rename_i he; simp only [Option.some.injEq] at h; subst he; subst h; simp
    · exact List.mem_cons_of_mem _ (ih h)

/-- Every parent that is put in is there. -/
theorem reparent_intact {E : Env} {u : List String} : ∀ (ss : List State) (parents : List (String × String))
    (b : List State), IntactFrom E b (ss.map blank) →
    (∀ kv ∈ parents, kv.2 = "" ∨ ∃ y ∈ b, y.urn = kv.2) →
    (∀ pre s post, ss = pre ++ s :: post → s.parent ∈ u → s.parent = "" ∨ ∃ x ∈ b ++ pre, x.urn = s.parent) →
    IntactFrom E b (reparent u parents ss) := by
  intro ss
  induction ss with
  | nil => intros; trivial
  | cons s ss ih =>
    intro parents b hi hpar hu
    have hgood : (if s.parent ∈ u then s.parent else (lookup parents s.parent).getD "") = "" ∨
        ∃ y ∈ b, y.urn = if s.parent ∈ u then s.parent else (lookup parents s.parent).getD "" := by
      by_cases h : s.parent ∈ u
      · rw [if_pos h]; simpa using hu [] s ss rfl h
      · rw [if_neg h]
        cases hl : lookup parents s.parent with
        | none => exact Or.inl rfl
        | some v => exact hpar _ (lookup_mem hl)
    simp only [reparent, IntactFrom]
    refine ⟨⟨hi.1.referenceable, ?_, hgood, hi.1.deps, hi.1.unique⟩, ih _ _ ?_ ?_ ?_⟩
    · rcases hi.1.provider with h0 | ⟨r, h1, x, hx, hp⟩
      · exact Or.inl h0
      · refine Or.inr ⟨r, h1, ?_⟩
        rcases List.mem_append.mp hx with hx | hx
        · exact ⟨x, List.mem_append_left _ hx, hp⟩
        · rw [List.mem_singleton.mp hx] at hp
          exact ⟨_, List.mem_append_right _ (List.mem_singleton.mpr rfl), hp⟩
    · exact intactFrom_before (by simp [ident, blank]) hi.2
    · intro kv hkv
      rcases List.mem_cons.mp hkv with rfl | hkv
      · rcases hgood with h0 | ⟨y, hy, h0⟩
        · exact Or.inl h0
        · exact Or.inr ⟨y, List.mem_append_left _ hy, h0⟩
      · rcases hpar kv hkv with h0 | ⟨y, hy, h0⟩
        · exact Or.inl h0
        · exact Or.inr ⟨y, List.mem_append_left _ hy, h0⟩
    · intro pre t post he ht
      rcases hu (s :: pre) t post (by rw [he]; rfl) ht with h0 | ⟨x, hx, h0⟩
      · exact Or.inl h0
      · refine Or.inr ?_
        simp only [List.mem_append, List.mem_cons] at hx
        rcases hx with hx | hx | hx
        · exact ⟨x, by simp [hx], h0⟩
        · subst hx; exact ⟨_, List.mem_append_left _ (List.mem_append_right _ (List.mem_singleton.mpr rfl)), h0⟩
        · exact ⟨x, by simp [hx], h0⟩

/-- A parent that is still there is there before its children. -/
theorem parents_before {E : Env} {l : List (State × Bool)} :
    ∀ (L P : List (State × Bool)), l = P ++ L → IntactFrom E (P.map (·.1)) (L.map (·.1)) →
      ∀ pre s post, (L.filter (·.2)).map (·.1) = pre ++ s :: post → s.parent = "" ∨
        ∀ z ∈ l, z.2 = true → z.1.delete = false → z.1.urn = s.parent →
          ∃ x ∈ (P.filter (·.2)).map (·.1) ++ pre, x.urn = s.parent := by
  intro L
  induction L with
  | nil => intro P _ _ pre s post he; simp at he
  | cons t L ih =>
    intro P he hi pre s post hsplit
    have hrec := ih (P ++ [t]) (by rw [he]; simp) (by simpa using hi.2)
    cases hk : t.2 with
    | false =>
      simp only [List.filter_cons, hk, Bool.false_eq_true, if_false] at hsplit
      have := hrec pre s post hsplit
      simpa [List.filter_append, hk] using this
    | true =>
      simp only [List.filter_cons, hk, if_true, List.map_cons] at hsplit
      cases pre with
      | cons p pre =>
        simp only [List.cons_append, List.cons.injEq] at hsplit
        have := hrec pre s post hsplit.2
        simp only [List.filter_append, List.filter_cons, hk, if_true, List.filter_nil, List.map_append, List.map_cons,
          List.map_nil, List.append_assoc, List.cons_append, List.nil_append] at this
        rw [← hsplit.1]
        exact this
      | nil =>
        simp only [List.nil_append, List.cons.injEq] at hsplit
        obtain ⟨hts, _⟩ := hsplit
        subst hts
        rcases hi.1.parent with h0 | ⟨x, hx, hxu⟩
        · exact Or.inl h0
        · refine Or.inr (fun z hz hz2 hd hzu => ?_)
          rw [he] at hz
          rcases List.mem_append.mp hz with hz | hz
          · exact ⟨z.1, List.mem_append_left _ (List.mem_map.mpr ⟨z, List.mem_filter.mpr ⟨hz, hz2⟩, rfl⟩), hzu⟩
          · exact absurd (hxu.trans hzu.symm) (live_first hi z.1 (List.mem_map.mpr ⟨z, hz, rfl⟩) hd x hx)

theorem keepDeps_split : ∀ (k : List State) (seen : List String) (pre : List State) (s : State) (post : List State),
    keepDeps seen k = pre ++ s :: post → ∃ pre' s' post', k = pre' ++ s' :: post' ∧ s'.parent = s.parent ∧
      pre'.map (·.urn) = pre.map (·.urn) := by
  intro k
  induction k with
  | nil => intro _ pre s post h; cases pre <;> simp [keepDeps] at h
  | cons x k ih =>
    intro seen pre s post h
    simp only [keepDeps] at h
    cases pre with
    | nil =>
      simp only [List.nil_append, List.cons.injEq] at h
      exact ⟨[], x, k, rfl, by rw [← h.1], rfl⟩
    | cons p pre =>
      simp only [List.cons_append, List.cons.injEq] at h
      have ⟨pre', s', post', h1, h2, h3⟩ := ih _ _ _ _ h.2
      exact ⟨x :: pre', s', post', by rw [h1]; rfl, h2, by rw [List.map_cons, List.map_cons, h3, ← h.1]⟩

theorem keepDeps_mem : ∀ (k : List State) (seen : List String) (s : State), s ∈ keepDeps seen k →
    ∃ x ∈ k, x.urn = s.urn ∧ x.delete = s.delete := by
  intro k
  induction k with
  | nil => intro _ s h; simp [keepDeps] at h
  | cons x k ih =>
    intro seen s h
    simp only [keepDeps, List.mem_cons] at h
    rcases h with h | h
    · subst h; exact ⟨x, by simp, rfl, rfl⟩
    · have ⟨y, hy, h1⟩ := ih _ s h
      exact ⟨y, List.mem_cons_of_mem _ hy, h1⟩

/-- Dropping states from an intact list and rebuilding it leaves it intact, as long as no provider is dropped that a
remaining state uses. -/
theorem rebuilt_intact {E : Env} {l : List (State × Bool)} (hi : IntactFrom E [] (l.map (·.1)))
    (hp : ∀ s ∈ l, s.2 = true → ∀ r, s.1.provider = .ref r → ∀ y ∈ l, Provides E y.1 r → y.2 = true) :
    IntactFrom E [] (rebuilt ((l.filter (·.2)).map (·.1))) := by
  refine reparent_intact _ _ _ (keepDeps_intact hp l [] [] [] rfl (by simpa using hi) (by simp) (by simp) (by simp))
    (by simp) ?_
  intro pre s post he hs
  have ⟨pre', s', post', h1, h2, h3⟩ := keepDeps_split _ _ _ _ _ he
  rcases parents_before l [] rfl (by simpa using hi) pre' s' post' h1 with h0 | h0
  · exact Or.inl (h2 ▸ h0)
  · right
    have ⟨z, hz, hzu⟩ := List.mem_map.mp hs
    have ⟨hz, hzd⟩ := List.mem_filter.mp hz
    have ⟨y, hy, hyu, hyd⟩ := keepDeps_mem _ _ _ hz
    have ⟨w, hw, hwy⟩ := List.mem_map.mp hy
    have ⟨hw, hw2⟩ := List.mem_filter.mp hw
    subst hwy
    have ⟨x, hx, hxu⟩ := h0 w hw hw2 (by rw [hyd]; simpa using hzd) (by rw [hyu, hzu, h2])
    simp only [List.filter_nil, List.map_nil, List.nil_append] at hx ⊢
    have : s.parent ∈ pre.map (·.urn) := by
      rw [← h3, ← h2, ← hxu]; exact List.mem_map.mpr ⟨x, hx, rfl⟩
    have ⟨v, hv, hvu⟩ := List.mem_map.mp this
    exact ⟨v, hv, hvu⟩

end Pulumi.Snapshot
