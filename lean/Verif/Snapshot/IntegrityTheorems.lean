import Verif.Snapshot.IntegrityRun
import Verif.Snapshot.IntegrityDecide
import Verif.Snapshot.Theorems
/-!
# The checkpoint is intact

What the engine's integrity check accepts, and that the checkpoints it writes pass it.
-/
namespace Pulumi.Snapshot

/-! ## The check -/

/-- C136. The integrity check accepts a checkpoint exactly if every resource in it is backed by those before it. -/
theorem verify_iff_intact (E : Env) (s : Snap) : verify E s = .ok () ↔ Intact E s.resources := verify_ok_iff E s

theorem any_urn (l : List State) (u : String) : l.any (fun o => o.urn = u) = true ↔ ∃ x ∈ l, x.urn = u := by simp

theorem verifyFrom_error (E : Env) (l : List State) : ∀ (urns : List String) (provs : List Ref) (b : List State)
    (e : IntegrityErr), (∀ u, u ∈ urns ↔ ∃ x ∈ b, x.urn = u) → (∀ r, r ∈ provs ↔ ∃ x ∈ b, Provides E x r) →
    verifyFrom E urns provs l = .error e →
    ∃ pre s post, l = pre ++ s :: post ∧ IntactFrom E b pre ∧ Why E (b ++ pre) s post e := by
  induction l with
  | nil => intro _ _ _ e _ _ h; simp [verifyFrom] at h
  | cons s rest ih =>
    intro urns provs b e hu hp h
    -- the first resource by itself
    by_cases h1 : verifyFrom E urns provs [s] = .ok ()
    · have hb := (verifyFrom_iff E [s] urns provs b hu hp).mp h1
      have hrec : ∃ provs', (∀ r, r ∈ provs' ↔ ∃ x ∈ b ++ [s], Provides E x r) ∧
          verifyFrom E (s.urn :: urns) provs' rest = .error e := by
        simp only [verifyFrom] at h h1
        have hpv : ∀ r, (∃ x ∈ b ++ [s], Provides E x r) ↔ (∃ x ∈ b, Provides E x r) ∨ Provides E s r := by
          intro r
          constructor
          · rintro ⟨x, hx, hxr⟩
            rcases List.mem_append.mp hx with hx | hx
            · exact Or.inl ⟨x, hx, hxr⟩
            · rw [List.mem_singleton.mp hx] at hxr; exact Or.inr hxr
          · rintro (⟨x, hx, hxr⟩ | hxr)
            · exact ⟨x, List.mem_append_left _ hx, hxr⟩
            · exact ⟨s, by simp, hxr⟩
        cases ha : addProvider E s provs with
        | error _ => rw [ha] at h1; simp at h1
        | ok provs' =>
          rw [ha] at h h1
          refine ⟨provs', ?_, ?_⟩
          · intro r
            rw [hpv, ← hp]
            unfold addProvider at ha
            split at ha
            · rename_i ht
              split at ha
              · simp only [Except.ok.injEq] at ha
                subst ha
                simp only [List.mem_cons, Provides, ht, true_and]
                constructor
                · rintro (rfl | h0)
                  · exact Or.inr ⟨rfl, rfl⟩
                  · exact Or.inl h0
                · rintro (h0 | ⟨h2, h3⟩)
                  · exact Or.inr h0
                  · left; cases r; simp_all
              · simp at ha
            · rename_i ht
              simp only [Except.ok.injEq] at ha
              subst ha
              simp [Provides, ht]
          · simp only at h h1
            split at h1
            · simp at h1
            rename_i hcp
            rw [hcp] at h
            simp only at h
            have hpar : checkParent urns rest s.parent = .ok () := by
              have := hb.1.parent
              unfold checkParent
              rcases this with h0 | h0
              · rw [if_pos h0]
              · split
                · rfl
                · rw [if_pos ((hu _).mpr h0)]
            rw [hpar] at h
            simp only at h
            have hdep : ∀ ds : List String, (∀ d ∈ ds, ∃ x ∈ b, x.urn = d) → checkDeps urns rest ds = .ok () := by
              intro ds
              induction ds with
              | nil => intro _; rfl
              | cons d ds ihd =>
                intro hds
                simp only [checkDeps]
                rw [if_pos ((hu _).mpr (hds d (by simp)))]
                exact ihd (fun d hd => hds d (List.mem_cons_of_mem _ hd))
            rw [hdep _ hb.1.deps] at h
            simp only at h
            have hun : checkUrn urns s = .ok () := by
              unfold checkUrn
              rw [if_neg]
              rintro ⟨h2, h3⟩
              rcases hb.1.unique with h0 | h0
              · rw [h3] at h0; exact absurd h0 (by simp)
              · have ⟨x, hx, hxu⟩ := (hu _).mp h2
                exact h0 x hx hxu
            rw [hun] at h
            exact h
      have ⟨provs', hp', h'⟩ := hrec
      have hu' : ∀ u, u ∈ s.urn :: urns ↔ ∃ x ∈ b ++ [s], x.urn = u := by
        intro u
        constructor
        · intro h0
          rcases List.mem_cons.mp h0 with h0 | h0
          · exact ⟨s, by simp, h0.symm⟩
          · have ⟨x, hx, hxu⟩ := (hu u).mp h0
            exact ⟨x, List.mem_append_left _ hx, hxu⟩
        · rintro ⟨x, hx, hxu⟩
          rcases List.mem_append.mp hx with hx | hx
          · exact List.mem_cons_of_mem _ ((hu u).mpr ⟨x, hx, hxu⟩)
          · rw [List.mem_singleton.mp hx] at hxu; simp [hxu]
      have ⟨pre, t, post, h2, h3, h4⟩ := ih _ _ _ e hu' hp' h'
      exact ⟨s :: pre, t, post, by rw [h2]; rfl, ⟨hb.1, h3⟩, by simpa using h4⟩
    · refine ⟨[], s, rest, rfl, trivial, ?_⟩
      simp only [List.append_nil]
      have hnu : ∀ u, u ∉ urns → ∀ x ∈ b, x.urn ≠ u := fun u h0 x hx he => h0 ((hu u).mpr ⟨x, hx, he⟩)
      simp only [verifyFrom] at h h1
      cases ha : addProvider E s provs with
      | error e' =>
        rw [ha] at h
        simp only [Except.error.injEq] at h
        subst h
        unfold addProvider at ha
        split at ha
        · split at ha
          · simp at ha
          · rename_i ht hv
            simp only [Except.error.injEq] at ha
            subst ha
            exact ⟨ht, by simpa using hv⟩
        · simp at ha
      | ok provs' =>
        rw [ha] at h h1
        simp only at h h1
        cases hc : checkProvider provs' s.provider with
        | error e' =>
          rw [hc] at h
          simp only [Except.error.injEq] at h
          subst h
          cases hs : s.provider with
          | none => rw [hs] at hc; simp [checkProvider] at hc
          | malformed m =>
            rw [hs] at hc
            simp only [checkProvider, Except.error.injEq] at hc
            subst hc
            exact ⟨m, hs⟩
          | ref r =>
            rw [hs] at hc
            simp only [checkProvider] at hc
            split at hc
            · simp at hc
            · rename_i hr
              simp only [Except.error.injEq] at hc
              subst hc
              refine ⟨r, hs, fun x hx hxr => hr ?_⟩
              unfold addProvider at ha
              rcases List.mem_append.mp hx with hx | hx
              · have hm := (hp r).mpr ⟨x, hx, hxr⟩
                repeat' split at ha
                all_goals simp only [Except.ok.injEq, reduceCtorEq] at ha
                all_goals subst ha
                · exact List.mem_cons_of_mem _ hm
                · exact hm
              · rw [List.mem_singleton.mp hx] at hxr
                rw [if_pos hxr.1] at ha
                split at ha
                · simp only [Except.ok.injEq] at ha
                  subst ha
                  cases r
                  simp only [Provides] at hxr
                  simp [hxr.2.1, hxr.2.2]
                · simp at ha
        | ok _ =>
          rw [hc] at h h1
          simp only at h h1
          cases hpa : checkParent urns rest s.parent with
          | error e' =>
            rw [hpa] at h
            simp only [Except.error.injEq] at h
            subst h
            unfold checkParent at hpa
            split at hpa
            · simp at hpa
            · split at hpa
              · simp at hpa
              · rename_i h2 h3
                split at hpa
                · rename_i h4
                  simp only [Except.error.injEq] at hpa
                  subst hpa
                  exact ⟨h2, hnu _ h3, (any_urn _ _).mp h4⟩
                · rename_i h4
                  simp only [Except.error.injEq] at hpa
                  subst hpa
                  exact ⟨h2, hnu _ h3, fun x hx he => h4 ((any_urn _ _).mpr ⟨x, hx, he⟩)⟩
          | ok _ =>
            have hpa' : checkParent urns [] s.parent = .ok () := by
              unfold checkParent at hpa ⊢
              split
              · rfl
              · rw [if_neg ‹_›] at hpa
                split
                · rfl
                · rw [if_neg ‹_›] at hpa
                  split at hpa <;> simp at hpa
            rw [hpa] at h
            rw [hpa'] at h1
            simp only at h h1
            have hdep : ∀ (ds : List String) e', checkDeps urns rest ds = .error e' →
                (e' = .dependencyAfter ∧ ∃ d ∈ ds, (∀ x ∈ b, x.urn ≠ d) ∧ ∃ x ∈ rest, x.urn = d) ∨
                (e' = .missingDependency ∧ ∃ d ∈ ds, (∀ x ∈ b, x.urn ≠ d) ∧ ∀ x ∈ rest, x.urn ≠ d) := by
              intro ds
              induction ds with
              | nil => intro e' h0; simp [checkDeps] at h0
              | cons d ds ihd =>
                intro e' h0
                simp only [checkDeps] at h0
                split at h0
                · rcases ihd e' h0 with ⟨h1, d', hd', h2⟩ | ⟨h1, d', hd', h2⟩
                  · exact Or.inl ⟨h1, d', List.mem_cons_of_mem _ hd', h2⟩
                  · exact Or.inr ⟨h1, d', List.mem_cons_of_mem _ hd', h2⟩
                · rename_i h3
                  split at h0
                  · rename_i h4
                    simp only [Except.error.injEq] at h0
                    exact Or.inl ⟨h0.symm, d, by simp, hnu _ h3, (any_urn _ _).mp h4⟩
                  · rename_i h4
                    simp only [Except.error.injEq] at h0
                    exact Or.inr ⟨h0.symm, d, by simp, hnu _ h3, fun x hx he => h4 ((any_urn _ _).mpr ⟨x, hx, he⟩)⟩
            cases hd : checkDeps urns rest s.deps with
            | error e' =>
              rw [hd] at h
              simp only [Except.error.injEq] at h
              subst h
              rcases hdep _ _ hd with ⟨h1, h2⟩ | ⟨h1, h2⟩
              · subst h1; exact h2
              · subst h1; exact h2
            | ok _ =>
              have hd' : ∀ ds : List String, checkDeps urns rest ds = .ok () → checkDeps urns [] ds = .ok () := by
                intro ds
                induction ds with
                | nil => intro _; rfl
                | cons d ds ihd =>
                  intro h0
                  simp only [checkDeps] at h0 ⊢
                  split at h0
                  · rw [if_pos ‹_›]; exact ihd h0
                  · split at h0 <;> simp at h0
              rw [hd] at h
              rw [hd' _ hd] at h1
              simp only at h h1
              cases hq : checkUrn urns s with
              | error e' =>
                rw [hq] at h
                simp only [Except.error.injEq] at h
                subst h
                unfold checkUrn at hq
                split at hq
                · rename_i h2
                  simp only [Except.error.injEq] at hq
                  subst hq
                  exact ⟨h2.2, (hu _).mp h2.1⟩
                · simp at hq
              | ok _ => rw [hq] at h1; simp at h1

/-- C136. When the check refuses a checkpoint, what it says about the first resource that is not backed is true of it. -/
theorem verify_says_why {E : Env} {s : Snap} {e : IntegrityErr} (h : verify E s = .error e) :
    ∃ pre x post, s.resources = pre ++ x :: post ∧ Intact E pre ∧ Why E pre x post e := by
  have ⟨pre, x, post, h1, h2, h3⟩ := verifyFrom_error E s.resources [] [] [] e (by simp) (by simp) h
  exact ⟨pre, x, post, h1, (intact_iff E pre).mpr h2, by simpa using h3⟩

/-- An environment with one type of provider. -/
def oneProvider : Env := ⟨fun t => t = "provider", fun _ => true⟩

/-- A provider `p` with the ID 1; `b`, which it provides; `c`, a child of `b`; and an older `b` to be deleted. -/
def goodList : List State :=
  [{ plain "p" with type := "provider", id := "1" }, { plain "b" with provider := .ref ⟨"p", "1"⟩ },
   { plain "c" with parent := "b", deps := ["p", "b"] }, { plain "b" with delete := true }]

example : verify oneProvider ⟨goodList, []⟩ = .ok () := by decide
example : verify oneProvider ⟨goodList.reverse, []⟩ = .error .dependencyAfter := by decide
example : verify oneProvider ⟨goodList ++ [plain "b"], []⟩ = .error .duplicate := by decide

/-! ## Rebuilding the list -/

/-- What a state that stays becomes has to be checked like it. -/
def Stands (h : Heap) (q q' : Ptr) : Prop :=
  (h q').type = (h q).type ∧ (h q').urn = (h q).urn ∧ (h q').id = (h q).id ∧ (h q').parent = (h q).parent ∧
  (h q').deps = (h q).deps ∧ (h q').provider = (h q).provider ∧ (h q').delete = (h q).delete

/-- C137. After a refresh has found any resources to be gone, what is left of an intact list is made intact again, as long
as no provider in use is among those gone. -/
theorem rebuild_keeps_intact {E : Env} {h : Heap} {base : List Ptr} {f : Ptr → Option Ptr}
    (hi : Intact E (base.map h)) (hn : (base.filterMap f).Nodup)
    (hs : ∀ q ∈ base, ∀ q', f q = some q' → Stands h q q')
    (hp : ∀ q ∈ base, f q ≠ none → ∀ r, (h q).provider = .ref r → ∀ y ∈ base, Provides E (h y) r → f y ≠ none) :
    Intact E ((rebuildBase f h base).2.map (rebuildBase f h base).1) := by
  rw [intact_iff] at hi ⊢
  rw [rebuildBase_states _ _ _ hn, ← filter_marked]
  have hs' : ∀ q ∈ base, ∀ q', f q = some q' → SameCore (h q') (h q) ∧ (h q').delete = (h q).delete := by
    intro q hq q' hf
    have ⟨h1, h2, h3, h4, h5, h6, h7⟩ := hs q hq q' hf
    exact ⟨⟨h1, h2, h3, h4, h5, h6⟩, h7⟩
  refine rebuilt_intact (filterMap_marked _ _ _ hs' hi) ?_
  intro x hx hx2 r hr y hy hyr
  have ⟨q, hq, hxq⟩ := List.mem_map.mp hx
  have ⟨z, hz, hyz⟩ := List.mem_map.mp hy
  subst hxq; subst hyz
  simp only at hx2 hr hyr ⊢
  have hq' : f q ≠ none := by intro hn; rw [hn] at hx2; simp at hx2
  have hprov : (h q).provider = .ref r := by
    cases hf : f q with
    | none => exact absurd hf hq'
    | some q' => rw [hf] at hr; rw [← (hs' q hq q' hf).1.provider]; exact hr
  have hpz : Provides E (h z) r := by
    cases hf : f z with
    | none => rw [hf] at hyr; exact hyr
    | some z' =>
      rw [hf] at hyr
      have hc := (hs' z hz z' hf).1
      exact ⟨by rw [← hc.type]; exact hyr.1, hc.urn.symm.trans hyr.2.1, hc.id.symm.trans hyr.2.2⟩
  have := hp q hq hq' r hprov z hz hpz
  cases hf : f z with
  | none => exact absurd hf this
  | some _ => rfl

theorem keepDeps_at : ∀ (k : List State) (seen : List String) (pre : List State) (s : State) (post : List State),
    k = pre ++ s :: post → keepDeps seen k = keepDeps seen pre ++
      { s with deps := s.deps.filter (fun d => d ∈ (pre.map (·.urn)).reverse ++ seen) } ::
        keepDeps (s.urn :: ((pre.map (·.urn)).reverse ++ seen)) post := by
  intro k
  induction k with
  | nil => intro _ pre s post h; cases pre <;> simp at h
  | cons x k ih =>
    intro seen pre s post h
    cases pre with
    | nil =>
      simp only [List.nil_append, List.cons.injEq] at h
      obtain ⟨h1, h2⟩ := h
      subst h1; subst h2
      simp [keepDeps]
    | cons p pre =>
      simp only [List.cons_append, List.cons.injEq] at h
      obtain ⟨h1, h2⟩ := h
      subst h1
      simp only [keepDeps, List.cons_append]
      rw [ih (x.urn :: seen) pre s post h2]
      simp

/-- C137. Each state that stays keeps exactly its dependencies on states that stay before it, and nothing else of it
changes but its parent. -/
theorem rebuild_repairs_dependencies {h : Heap} {base : List Ptr} {f : Ptr → Option Ptr}
    (hn : (base.filterMap f).Nodup) {pre post : List Ptr} {q : Ptr} (he : base.filterMap f = pre ++ q :: post) :
    ∃ parent, (rebuildBase f h base).1 q =
      { h q with deps := (h q).deps.filter (fun d => d ∈ pre.map (fun x => (h x).urn)), parent := parent } := by
  refine ⟨((rebuildBase f h base).1 q).parent, ?_⟩
  have h1 : { (rebuildBase f h base).1 q with parent := "" } = { (rebuildList f h [] base).1 q with parent := "" } :=
    undangle_heap _ _ _ _ q
  have h2 := rebuildList_states f base h [] hn
  rw [he, keepDeps_at _ [] (pre.map h) (h q) (post.map h) (by simp)] at h2
  simp only [List.map_append, List.map_cons] at h2
  have hlen : (pre.map (rebuildList f h [] base).1).length = (keepDeps [] (pre.map h)).length := by
    have : ∀ (k : List State) seen, (keepDeps seen k).length = k.length := by
      intro k; induction k with
      | nil => intro _; rfl
      | cons x k ih => intro seen; simp [keepDeps, ih]
    rw [this]; simp
  have h3 := (List.append_inj h2 hlen).2
  simp only [List.cons.injEq] at h3
  rw [h3.1] at h1
  have h4 := congrArg (fun x : State => { x with parent := ((rebuildBase f h base).1 q).parent }) h1
  refine Eq.trans (b := { (rebuildBase f h base).1 q with parent := ((rebuildBase f h base).1 q).parent }) rfl
    (h4.trans ?_)
  simp

theorem reparent_at (u : List String) : ∀ (k : List State) (parents : List (String × String)) (pre : List State)
    (s : State) (post : List State), k = pre ++ s :: post →
    ∃ parents', (∀ kv ∈ parents', kv ∈ parents ∨ ∃ x ∈ pre, x.urn = kv.1) ∧
      reparent u parents k = reparent u parents pre ++
        { s with parent := if s.parent ∈ u then s.parent else (lookup parents' s.parent).getD "" } ::
          reparent u ((s.urn, if s.parent ∈ u then s.parent else (lookup parents' s.parent).getD "") :: parents') post := by
  intro k
  induction k with
  | nil => intro _ pre s post h; cases pre <;> simp at h
  | cons x k ih =>
    intro parents pre s post h
    cases pre with
    | nil =>
      simp only [List.nil_append, List.cons.injEq] at h
      obtain ⟨h1, h2⟩ := h
      subst h1; subst h2
      exact ⟨parents, fun kv hkv => Or.inl hkv, by simp [reparent]⟩
    | cons p pre =>
      simp only [List.cons_append, List.cons.injEq] at h
      obtain ⟨h1, h2⟩ := h
      subst h1
      have ⟨ps, hps, hr⟩ := ih ((x.urn, if x.parent ∈ u then x.parent else (lookup parents x.parent).getD "") :: parents)
        pre s post h2
      refine ⟨ps, ?_, by simp only [reparent, List.cons_append]; rw [hr]⟩
      intro kv hkv
      rcases hps kv hkv with h0 | ⟨y, hy, h0⟩
      · rcases List.mem_cons.mp h0 with h0 | h0
        · exact Or.inr ⟨x, by simp, by rw [h0]⟩
        · exact Or.inl h0
      · exact Or.inr ⟨y, List.mem_cons_of_mem _ hy, h0⟩

theorem reparent_length (u : List String) : ∀ (k : List State) (ps : List (String × String)),
    (reparent u ps k).length = k.length := by
  intro k
  induction k with
  | nil => intro _; rfl
  | cons x k ih => intro ps; simp [reparent, ih]

/-- C137. A state whose parent stays keeps it. A state whose parent is gone gets none. -/
theorem rebuild_repairs_parents {h : Heap} {base : List Ptr} {f : Ptr → Option Ptr}
    (hn : (base.filterMap f).Nodup) {q : Ptr} (hq : q ∈ base.filterMap f) :
    ((∃ z ∈ base.filterMap f, (h z).delete = false ∧ (h z).urn = (h q).parent) →
      ((rebuildBase f h base).1 q).parent = (h q).parent) ∧
    ((∀ z ∈ base.filterMap f, (h z).urn ≠ (h q).parent) → ((rebuildBase f h base).1 q).parent = "") := by
  have ⟨pre, post, he⟩ := List.append_of_mem hq
  have hst := rebuildBase_states f h base hn
  have hk := keepDeps_at ((base.filterMap f).map h) [] (pre.map h) (h q) (post.map h) (by rw [he]; simp)
  have ⟨ps, hps, hr⟩ := reparent_at (((keepDeps [] ((base.filterMap f).map h)).filter (fun s => s.delete = false)).map (·.urn))
    (keepDeps [] ((base.filterMap f).map h)) [] _ _ _ hk
  unfold rebuilt at hst
  rw [hr] at hst
  rw [rebuildBase_base] at hst
  conv at hst => lhs; rw [he]
  simp only [List.map_append, List.map_cons] at hst
  have hkl : ∀ (k : List State) seen, (keepDeps seen k).length = k.length := by
    intro k; induction k with
    | nil => intro _; rfl
    | cons x k ih => intro seen; simp [keepDeps, ih]
  have h3 := (List.append_inj hst (by rw [reparent_length, hkl]; simp)).2
  simp only [List.cons.injEq] at h3
  have hpar := congrArg State.parent h3.1
  simp only at hpar
  have hmem : ∀ (k : List State) (seen : List String) (x : State), x ∈ k → ∃ y ∈ keepDeps seen k, y.urn = x.urn ∧
      y.delete = x.delete := by
    intro k
    induction k with
    | nil => intro _ x hx; simp at hx
    | cons t k ih =>
      intro seen x hx
      rcases List.mem_cons.mp hx with rfl | hx
      · exact ⟨{ x with deps := x.deps.filter (fun d => d ∈ seen) }, by simp [keepDeps], rfl, rfl⟩
      · have ⟨y, hy, h0⟩ := ih (t.urn :: seen) x hx
        exact ⟨y, by simp only [keepDeps, List.mem_cons]; exact Or.inr hy, h0⟩
  rw [hpar]
  constructor
  · rintro ⟨z, hz, hd, hu⟩
    have ⟨y, hy, hyu, hyd⟩ := hmem _ [] (h z) (List.mem_map.mpr ⟨z, hz, rfl⟩)
    rw [if_pos]
    refine List.mem_map.mpr ⟨y, List.mem_filter.mpr ⟨hy, ?_⟩, hyu.trans hu⟩
    rw [hyd, hd]; rfl
  · intro hnone
    rw [if_neg]
    · cases hl : lookup ps (h q).parent with
      | none => rfl
      | some v =>
        rcases hps _ (lookup_mem hl) with h0 | ⟨x, hx, hxu⟩
        · simp at h0
        · have ⟨y, hy, hyu, _⟩ := keepDeps_mem _ _ _ hx
          have ⟨w, hw, hwy⟩ := List.mem_map.mp hy
          subst hwy
          exact absurd (hyu.trans hxu) (hnone w (by rw [he]; simp [hw]))
    · intro hm
      have ⟨y, hy, hyu⟩ := List.mem_map.mp hm
      have ⟨x, hx, hxu, _⟩ := keepDeps_mem _ _ _ (List.mem_filter.mp hy).1
      have ⟨w, hw, hwx⟩ := List.mem_map.mp hx
      subst hwx
      exact hnone w hw (hxu.trans hyu)

/-- `a`, its child `b`, and `c`, a child of `b` that depends on both. -/
def family : Heap := fun n =>
  if n = 0 then plain "a" else if n = 1 then { plain "b" with parent := "a" }
  else { plain "c" with parent := "b", deps := ["a", "b"] }

/-- `b` is gone. -/
def withoutB (n : Ptr) : Option Ptr := if n = 1 then none else some n

example : Intact plainEnv ([0, 1, 2].map family) ∧ ([0, 1, 2].filterMap withoutB).Nodup ∧
    (rebuildBase withoutB family [0, 1, 2]).1 2 = { plain "c" with deps := ["a"] } :=
  ⟨(verify_iff_intact plainEnv ⟨[0, 1, 2].map family, []⟩).mp (by decide), by decide, by decide⟩

/-- C137. A state whose parent is gone is not given the parent of its parent, although that stays, as the comment in the
code has it. -/
theorem grandparent_is_lost : ∃ (h : Heap) (base : List Ptr) (f : Ptr → Option Ptr) (child parent grand : Ptr),
    Intact plainEnv (base.map h) ∧ child ∈ base ∧ parent ∈ base ∧ grand ∈ base ∧
    (h child).parent = (h parent).urn ∧ (h parent).parent = (h grand).urn ∧
    f parent = none ∧ f child = some child ∧ f grand = some grand ∧
    ((rebuildBase f h base).1 child).parent ≠ (h grand).urn ∧ ((rebuildBase f h base).1 child).parent = "" :=
  ⟨family, [0, 1, 2], withoutB, 2, 1, 0, (verify_iff_intact plainEnv ⟨[0, 1, 2].map family, []⟩).mp (by decide),
    by decide, by decide, by decide, by decide, by decide, by decide, by decide, by decide, by decide, by decide⟩

/-! ## Every checkpoint -/

/-- C138. However many updates there are and wherever each of them stops, the checkpoint is intact, and the next update
accepts it. This holds as long as resources have no aliases, new states are recorded after what they refer to and once, a
state is only dropped without a successor when nothing that remains needs it, and the list is only rebuilt before anything
is recorded. The full claim leaves it to the engine that these hold; the theorems after this one show that there are
updates in which they do not. -/
theorem checkpoint_intact_partial {E : Env} {s : Sys} (h : Reach E (fun s e => Careful s e ∧ Orderly E s e) s) :
    Intact E s.disk.resources ∧ verify E s.disk = .ok () := by
  have := (intact_iff E _).mpr (inv2_reach h).2.disk
  exact ⟨this, (verify_iff_intact E s.disk).mpr this⟩

/-- Cells 0 and 3 are for the provider `p`, 1 and 4 for `b`, which it provides, 2 and 5 for `c`, a child of `b`. -/
def providerCells : Heap := fun n =>
  if n % 3 = 0 then { plain "p" with type := "provider" }
  else if n % 3 = 1 then { plain "b" with provider := .ref ⟨"p", "1"⟩ }
  else { plain "c" with parent := "b", deps := ["p", "b"] }

def providerStack : Sys := ⟨providerCells, newManager [] [], ⟨[], []⟩, [], [], []⟩

def create (old : Option Ptr) (new : Ptr) (pd : Bool) (id : String) : List Event :=
  [.begin (.create old new pd) true, .act 0 (.created id), .ret 0 "" "", .finish 0 true]

def perform (st : Step) : List Event := [.begin st true, .act 0 .ok, .ret 0 "" "", .finish 0 true]

/-- Everything is created; in the next update `b` is replaced and `c` updated, and a third one stops in the middle of
deleting `c`. -/
def up1 : List Event := create none 0 false "1" ++ create none 1 false "2" ++ create none 2 false "3"
def up2 : List Event := perform (.same 0 3 false) ++ create (some 1) 4 true "4" ++ perform (.update 2 5) ++
  perform (.delete 1 true)
def up3 : List Event := [.begin (.delete 5 false) true, .act 0 .ok]

def afterP (es : List Event) (s : Sys) : Sys := (run oneProvider s es).getD s

theorem reach_afterP {A : Sys → Event → Prop} {es : List Event} {s : Sys} (h : Reach oneProvider A s)
    (ha : AllowedRun oneProvider A s es) (hr : (run oneProvider s es).isSome = true) : Reach oneProvider A (afterP es s) := by
  unfold afterP
  cases hr' : run oneProvider s es with
  | none => rw [hr'] at hr; simp at hr
  | some t => exact reach_run h ha hr'

theorem reach_restartP {A : Sys → Event → Prop} {s : Sys} (base : List Ptr) (h : Reach oneProvider A s)
    (hd : s.disk = ⟨base.map s.heap, []⟩) : Reach oneProvider A (restart base s) :=
  .again h ⟨rfl, rfl, rfl, rfl, hd, by simp [restart]⟩

example : Reach oneProvider (fun s e => Careful s e ∧ Orderly oneProvider s e)
      (afterP up3 (restart [3, 4, 5] (afterP up2 (restart [0, 1, 2] (afterP up1 providerStack))))) ∧
    (afterP up3 (restart [3, 4, 5] (afterP up2 (restart [0, 1, 2] (afterP up1 providerStack))))).disk.resources.map
      (fun r => (r.urn, r.id)) = [("p", "1"), ("b", "4"), ("c", "3")] :=
  ⟨reach_afterP (reach_restartP [3, 4, 5] (reach_afterP (reach_restartP [0, 1, 2] (reach_afterP (.new providerCells)
    (by decide) (by decide)) (by decide)) (by decide) (by decide)) (by decide)) (by decide) (by decide), by decide⟩

/-- C138. When a provider is deleted before it is replaced, what it provided is deleted before it, but stays listed; once
the new provider has been created, the checkpoint refers to a provider it does not list, and the next update refuses it. -/
theorem replaced_provider_is_missing : ∃ s, Reach oneProvider Careful s ∧
    verify oneProvider s.disk = .error .unknownProvider := by
  refine ⟨afterP ([.condemn 1 true] ++ perform (.delete 1 true) ++ [.condemn 0 true] ++ perform (.delete 0 true) ++
    create (some 0) 3 false "9") (restart [0, 1, 2] (afterP up1 providerStack)), ?_, by decide⟩
  exact reach_afterP (reach_restartP [0, 1, 2] (reach_afterP (.new providerCells) (by decide) (by decide)) (by decide))
    (by decide) (by decide)

/-- C138. When a resource that has been deleted to be replaced is imported instead of created, the checkpoint lists it
twice, and the next update refuses it. -/
theorem imported_replacement_is_listed_twice : ∃ s, Reach oneProvider Careful s ∧
    verify oneProvider s.disk = .error .duplicate := by
  refine ⟨afterP ([.condemn 1 true] ++ perform (.delete 1 true) ++ perform (.same 0 3 false) ++ perform (.import none 4))
    (restart [0, 1] (afterP (create none 0 false "1" ++ create none 1 false "2") providerStack)), ?_, by decide⟩
  exact reach_afterP (reach_restartP [0, 1] (reach_afterP (.new providerCells) (by decide) (by decide)) (by decide))
    (by decide) (by decide)

end Pulumi.Snapshot
