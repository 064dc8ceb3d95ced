import Verif.Snapshot.IntegrityDecide
import Verif.Providers.Migrate
import Verif.Snapshot.Integrity
/-!
# Migrated states (C200)
-/
namespace Pulumi.Providers
open Pulumi.Snapshot (State Provider Intact IntactFrom Backed Env Provides intact_iff intactFrom_iff)

/-- A resource with the provider of its package -/
def Migration.rewrite (M : Migration) (refs : String → Option Snapshot.Ref) (s : State) : State :=
  if M.needs s then
    match refs (M.pkg s.urn) with
    | some r => { s with provider := .ref r }
    | none => s
  else s

/-- What the loop makes: providers for different packages that some resource needs, whose references the resources get. -/
structure Added (M : Migration) (l : List State) (refs refs' : String → Option Snapshot.Ref) (new old : List State) : Prop where
  old : old = l.map (M.rewrite refs')
  keeps : ∀ p r, refs p = some r → refs' p = some r
  all : ∀ s ∈ l, M.needs s = true → refs' (M.pkg s.urn) ≠ none
  made : ∀ n ∈ new, ∃ p id i, n = M.provider p id i ∧ refs p = none ∧ refs' p = some ⟨n.urn, n.id⟩ ∧ M.inputs p = .ok i ∧ ∃ s ∈ l, M.needs s = true ∧ M.pkg s.urn = p
  from_ : ∀ p r, refs' p = some r → refs p = some r ∨ ∃ n ∈ new, ∃ id i, n = M.provider p id i ∧ r = ⟨n.urn, n.id⟩
  packages : ∃ ps : List (String × String × String), new = ps.map (fun x => M.provider x.1 x.2.1 x.2.2) ∧ (ps.map (·.1)).Nodup ∧
    (∀ x ∈ ps, refs x.1 = none ∧ M.inputs x.1 = .ok x.2.2 ∧ ∃ s ∈ l, M.needs s = true ∧ M.pkg s.urn = x.1) ∧
    ∀ s ∈ l, M.needs s = true → refs (M.pkg s.urn) = none → M.pkg s.urn ∈ ps.map (·.1)

theorem add_spec {M : Migration} {l : List State} {refs : String → Option Snapshot.Ref} {k : Nat} {new old : List State}
    (h : M.add l refs k = .ok (new, old)) : ∃ refs', Added M l refs refs' new old := by
  induction l generalizing refs k new old with
  | nil =>
    cases h
    exact ⟨refs, rfl, fun _ _ h => h, fun s hs => (by cases hs), fun n hn => (by cases hn), fun p r h => .inl h, [], rfl, .nil, fun x hx => (by cases hx), fun s hs => (by cases hs)⟩
  | cons s l ih =>
    unfold Migration.add at h
    by_cases hn : M.needs s = true
    · rw [if_pos hn] at h
      cases hr : refs (M.pkg s.urn) with
      | some r =>
        rw [hr] at h
        simp only at h
        cases ha : M.add l refs k with
        | error e => rw [ha] at h; cases h
        | ok q =>
          obtain ⟨n', o'⟩ := q
          rw [ha] at h; cases h
          obtain ⟨refs', A⟩ := ih ha
          have hpk : ∃ ps : List (String × String × String), new = ps.map (fun x => M.provider x.1 x.2.1 x.2.2) ∧ (ps.map (·.1)).Nodup ∧
              (∀ x ∈ ps, refs x.1 = none ∧ M.inputs x.1 = .ok x.2.2 ∧ ∃ t ∈ s :: l, M.needs t = true ∧ M.pkg t.urn = x.1) ∧
              ∀ t ∈ s :: l, M.needs t = true → refs (M.pkg t.urn) = none → M.pkg t.urn ∈ ps.map (·.1) := by
            obtain ⟨ps, h1, h2, h3, h4⟩ := A.packages
            refine ⟨ps, h1, h2, fun x hx => ?_, fun t ht htn htr => ?_⟩
            · obtain ⟨a, b, t, ht, c⟩ := h3 x hx
              exact ⟨a, b, t, List.mem_cons_of_mem _ ht, c⟩
            · rcases List.mem_cons.mp ht with rfl | ht
              · rw [hr] at htr; cases htr
              · exact h4 t ht htn htr
          refine ⟨refs', ?_, A.keeps, fun t ht htn => ?_, fun n hn' => ?_, A.from_, hpk⟩
          · rw [List.map_cons, ← A.old]
            congr 1
            unfold Migration.rewrite
            rw [if_pos hn, A.keeps _ _ hr]
          · rcases List.mem_cons.mp ht with rfl | ht
            · rw [A.keeps _ _ hr]; simp
            · exact A.all t ht htn
          · obtain ⟨p, id, i, a, b, c, d, t, ht, e⟩ := A.made n hn'
            exact ⟨p, id, i, a, b, c, d, t, List.mem_cons_of_mem _ ht, e⟩
      | none =>
        rw [hr] at h
        simp only at h
        cases hi : M.inputs (M.pkg s.urn) with
        | error e => rw [hi] at h; cases h
        | ok i =>
          rw [hi] at h
          simp only at h
          cases ha : M.add l (fun p => if p = M.pkg s.urn then some ⟨M.urn (M.pkg s.urn), M.uuid k⟩ else refs p) (k + 1) with
          | error e => rw [ha] at h; cases h
          | ok q =>
            obtain ⟨n', o'⟩ := q
            rw [ha] at h; cases h
            obtain ⟨refs', A⟩ := ih ha
            have hs : refs' (M.pkg s.urn) = some ⟨M.urn (M.pkg s.urn), M.uuid k⟩ := A.keeps _ _ (if_pos rfl)
            have hnone : ∀ p, (if p = M.pkg s.urn then some (⟨M.urn (M.pkg s.urn), M.uuid k⟩ : Snapshot.Ref) else refs p) = none → refs p = none ∧ p ≠ M.pkg s.urn := by
              intro p hp
              split at hp
              · cases hp
              · exact ⟨hp, by assumption⟩
            refine ⟨refs', ?_, fun p r hp => ?_, fun t ht htn => ?_, fun n hn' => ?_, fun p r hp => ?_, ?_⟩
            · rw [List.map_cons, ← A.old]
              congr 1
              unfold Migration.rewrite
              rw [if_pos hn, hs]
            · refine A.keeps p r ?_
              rw [if_neg]
              · exact hp
              · intro e; rw [e, hr] at hp; cases hp
            · rcases List.mem_cons.mp ht with rfl | ht
              · rw [hs]; simp
              · exact A.all t ht htn
            · rcases List.mem_cons.mp hn' with rfl | hn'
              · exact ⟨_, _, _, rfl, hr, hs, hi, s, List.mem_cons_self, hn, rfl⟩
              · obtain ⟨p, id, j, a, b, c, d, t, ht, e⟩ := A.made n hn'
                exact ⟨p, id, j, a, (hnone p b).1, c, d, t, List.mem_cons_of_mem _ ht, e⟩
            · rcases A.from_ p r hp with h1 | ⟨n, h1, h2⟩
              · split at h1
                · rename_i e
                  cases h1
                  exact .inr ⟨_, List.mem_cons_self, _, _, by rw [e], rfl⟩
                · exact .inl h1
              · exact .inr ⟨n, List.mem_cons_of_mem _ h1, h2⟩
            · obtain ⟨ps, h1, h2, h3, h4⟩ := A.packages
              refine ⟨(M.pkg s.urn, M.uuid k, i) :: ps, by rw [h1]; rfl, ?_, fun x hx => ?_, fun t ht htn htr => ?_⟩
              · rw [List.map_cons, List.nodup_cons]
                refine ⟨fun hmem => ?_, h2⟩
                obtain ⟨x, hx, e⟩ := List.mem_map.mp hmem
                exact (hnone _ (h3 x hx).1).2 e
              · rcases List.mem_cons.mp hx with rfl | hx
                · exact ⟨hr, hi, s, List.mem_cons_self, hn, rfl⟩
                · obtain ⟨a, b, t, ht, c⟩ := h3 x hx
                  exact ⟨(hnone _ a).1, b, t, List.mem_cons_of_mem _ ht, c⟩
              · rw [List.map_cons]
                by_cases e : M.pkg t.urn = M.pkg s.urn
                · rw [e]; exact List.mem_cons_self
                · rcases List.mem_cons.mp ht with rfl | ht
                  · exact absurd rfl e
                  · exact List.mem_cons_of_mem _ (h4 t ht htn (by rw [if_neg e]; exact htr))
    · rw [if_neg hn] at h
      cases ha : M.add l refs k with
      | error e => rw [ha] at h; cases h
      | ok q =>
        obtain ⟨n', o'⟩ := q
        rw [ha] at h; cases h
        obtain ⟨refs', A⟩ := ih ha
        have hpk : ∃ ps : List (String × String × String), new = ps.map (fun x => M.provider x.1 x.2.1 x.2.2) ∧ (ps.map (·.1)).Nodup ∧
            (∀ x ∈ ps, refs x.1 = none ∧ M.inputs x.1 = .ok x.2.2 ∧ ∃ t ∈ s :: l, M.needs t = true ∧ M.pkg t.urn = x.1) ∧
            ∀ t ∈ s :: l, M.needs t = true → refs (M.pkg t.urn) = none → M.pkg t.urn ∈ ps.map (·.1) := by
          obtain ⟨ps, h1, h2, h3, h4⟩ := A.packages
          refine ⟨ps, h1, h2, fun x hx => ?_, fun t ht htn htr => ?_⟩
          · obtain ⟨a, b, t, ht, c⟩ := h3 x hx
            exact ⟨a, b, t, List.mem_cons_of_mem _ ht, c⟩
          · rcases List.mem_cons.mp ht with rfl | ht
            · exact absurd htn hn
            · exact h4 t ht htn htr
        refine ⟨refs', ?_, A.keeps, fun t ht htn => ?_, fun n hn' => ?_, A.from_, hpk⟩
        · rw [List.map_cons, ← A.old]
          congr 1
          unfold Migration.rewrite
          rw [if_neg hn]
        · rcases List.mem_cons.mp ht with rfl | ht
          · exact absurd htn hn
          · exact A.all t ht htn
        · obtain ⟨p, id, i, a, b, c, d, t, ht, e⟩ := A.made n hn'
          exact ⟨p, id, i, a, b, c, d, t, List.mem_cons_of_mem _ ht, e⟩

/-! ## Properties -/

/-- What a migration keeps of a resource -/
structure Kept (M : Migration) (new : List State) (s s' : State) : Prop where
  same : s' = { s with provider := s'.provider, outputs := s'.outputs }
  /-- resources that have a provider, or need none, keep it -/
  provider : M.needs s = false → s'.provider = s.provider
  /-- the others get the new one of their package -/
  gets : M.needs s = true → ∃ p ∈ new, p.type = M.type (M.pkg s.urn) ∧ p.urn = M.urn (M.pkg s.urn) ∧ s'.provider = .ref ⟨p.urn, p.id⟩
  /-- only providers with inputs and no outputs get outputs -/
  outputs : s'.outputs = if M.isProv s.urn ∧ M.empty s.inputs = false ∧ M.empty s.outputs = true then s.inputs else s.outputs

theorem fill_same (M : Migration) (s : State) : M.fill s = { s with outputs := (M.fill s).outputs } := by
  unfold Migration.fill
  split <;> rfl

theorem rewrite_same (M : Migration) (refs : String → Option Snapshot.Ref) (s : State) : M.rewrite refs s = { s with provider := (M.rewrite refs s).provider } := by
  unfold Migration.rewrite
  split
  · split <;> rfl
  · rfl

theorem fill_outputs (M : Migration) (s : State) :
    (M.fill s).outputs = if M.isProv s.urn ∧ M.empty s.inputs = false ∧ M.empty s.outputs = true then s.inputs else s.outputs := by
  unfold Migration.fill
  by_cases h : M.isProv s.urn = true ∧ M.empty s.inputs = false ∧ M.empty s.outputs = true
  · rw [if_pos h, if_pos (by simp [h.1, h.2.1, h.2.2])]
  · rw [if_neg h, if_neg]
    simp only [Bool.and_eq_true, Bool.not_eq_true']
    exact fun ⟨⟨a, b⟩, c⟩ => h ⟨a, b, c⟩

/-- New providers are complete. -/
theorem fill_provider (M : Migration) (p id i : String) : M.fill (M.provider p id i) = M.provider p id i := by
  unfold Migration.fill Migration.provider
  simp only
  split
  · rfl
  · rfl

theorem migrate_form {M : Migration} {l out : List State} (h : M.migrate l = .ok out) :
    ∃ new refs, Added M l (fun _ => none) refs new (l.map (M.rewrite refs)) ∧ out = new ++ l.map fun s => M.fill (M.rewrite refs s) := by
  unfold Migration.migrate at h
  cases ha : M.add l (fun _ => none) 0 with
  | error e => rw [ha] at h; cases h
  | ok q =>
    obtain ⟨new, old⟩ := q
    rw [ha] at h; cases h
    obtain ⟨refs, A⟩ := add_spec ha
    refine ⟨new, refs, A.old ▸ A, ?_⟩
    have hnew : new.map M.fill = new := by
      conv => rhs; rw [← List.map_id new]
      refine List.map_congr_left fun n hn => ?_
      obtain ⟨p, id, i, e, -⟩ := A.made n hn
      rw [e]
      exact fill_provider M p id i
    rw [List.map_append, hnew, A.old, List.map_map]
    rfl

theorem kept {M : Migration} {l new old : List State} {refs : String → Option Snapshot.Ref} (A : Added M l (fun _ => none) refs new old) {s : State} (hs : s ∈ l) :
    Kept M new s (M.fill (M.rewrite refs s)) := by
  refine ⟨?_, fun hn => ?_, fun hn => ?_, ?_⟩
  · rw [fill_same M (M.rewrite refs s), rewrite_same M refs s]
  · rw [fill_same M (M.rewrite refs s)]
    unfold Migration.rewrite
    rw [if_neg (by rw [hn]; simp)]
  · have := A.all s hs hn
    obtain ⟨r, hr⟩ := Option.ne_none_iff_exists'.mp this
    rcases A.from_ _ _ hr with e | ⟨n, hn', id, i, e, er⟩
    · cases e
    · refine ⟨n, hn', by rw [e]; rfl, by rw [e]; rfl, ?_⟩
      rw [fill_same M (M.rewrite refs s)]
      unfold Migration.rewrite
      rw [if_pos hn, hr]
      simp only
      rw [er]
  · rw [fill_outputs, rewrite_same M refs s]

/-- **C200** After a migration the resources are the new providers, and then the old resources in their order; each is as it was, but for the provider of those
that had none and need one, which is the new one of their package, and the outputs of providers that had none. -/
theorem migrate_keeps {M : Migration} {l out : List State} (h : M.migrate l = .ok out) :
    ∃ new old, out = new ++ old ∧ old.length = l.length ∧ ∀ x ∈ l.zip old, Kept M new x.1 x.2 := by
  obtain ⟨new, refs, A, e⟩ := migrate_form h
  refine ⟨new, _, e, List.length_map _, fun x hx => ?_⟩
  rw [List.zip_map_right] at hx
  obtain ⟨y, hy, ey⟩ := List.mem_map.mp hx
  have hs : y.1 ∈ l := (List.of_mem_zip hy).1
  have hyy : y.2 = y.1 := by
    obtain ⟨k, hk, e⟩ := List.mem_iff_getElem.mp hy
    rw [List.getElem_zip] at e
    rw [← e]
  rw [← ey]
  simp only [Prod.map, id_eq]
  rw [hyy]
  exact kept A hs

theorem inputs_from {M : Migration} {p i : String} (h : M.inputs p = .ok i) :
    ∃ c, M.config p = some c ∧ (M.info p = none ∧ i = c ∨ ∃ v url, M.info p = some (some v, url) ∧ i = M.withInfo c v url) := by
  unfold Migration.inputs at h
  cases hc : M.config p with
  | none => rw [hc] at h; cases h
  | some c =>
    rw [hc] at h
    simp only at h
    refine ⟨c, rfl, ?_⟩
    cases hi : M.info p with
    | none => rw [hi] at h; cases h; exact .inl ⟨rfl, rfl⟩
    | some q =>
      obtain ⟨v, url⟩ := q
      rw [hi] at h
      cases v with
      | none => cases h
      | some v => cases h; exact .inr ⟨v, url, rfl, rfl⟩

/-- **C200** There is one new provider, custom and neither protected nor to be deleted, for every package with a resource that needs one, with the inputs of the configuration and the manifest. -/
theorem migrate_new {M : Migration} {l out : List State} (h : M.migrate l = .ok out) :
    ∃ (old : List State) (pkgs : List (String × String × String)), out = pkgs.map (fun x =>
      { type := M.type x.1, urn := M.urn x.1, custom := true, delete := false, id := x.2.1, inputs := x.2.2, outputs := x.2.2, parent := "", protect := false, external := false, deps := [], provider := .none, propDeps := [], pendingReplacement := false, aliases := [],
        timeouts := "", retainOnDelete := false, rest := "" }) ++ old ∧ old.length = l.length ∧
      (pkgs.map (·.1)).Nodup ∧ (∀ p, p ∈ pkgs.map (·.1) ↔ ∃ s ∈ l, M.needs s = true ∧ M.pkg s.urn = p) ∧
      ∀ x ∈ pkgs, ∃ c, M.config x.1 = some c ∧ (M.info x.1 = none ∧ x.2.2 = c ∨ ∃ v url, M.info x.1 = some (some v, url) ∧ x.2.2 = M.withInfo c v url) := by
  obtain ⟨new, refs, A, e⟩ := migrate_form h
  obtain ⟨ps, h1, h2, h3, h4⟩ := A.packages
  refine ⟨_, ps, h1 ▸ e, List.length_map _, h2, fun p => ⟨fun hp => ?_, fun ⟨s, hs, hn, hp⟩ => ?_⟩, fun x hx => inputs_from (h3 x hx).2.1⟩
  · obtain ⟨x, hx, ex⟩ := List.mem_map.mp hp
    rw [← ex]
    exact (h3 x hx).2.2
  · rw [← hp]
    exact h4 s hs hn rfl

/-- What the URNs that are made have to do with the types they are of -/
structure Migration.Sound (M : Migration) (E : Env) : Prop where
  isProv : ∀ p, M.isProv (M.urn p) = true
  type : ∀ p, E.isProviderType (M.type p) = true
  valid : ∀ p, E.validProviderUrn (M.urn p) = true
  inj : ∀ p q, M.urn p = M.urn q → p = q

/-- No resource that is not to be deleted has the URN of a default provider that is to be made. -/
def Migration.Clear (M : Migration) (l : List State) : Prop := ∀ s ∈ l, s.delete = false → ∀ t ∈ l, M.needs t = true → s.urn ≠ M.urn (M.pkg t.urn)

theorem new_intact {M : Migration} {E : Env} (hM : M.Sound E) (ps : List (String × String × String)) (h : (ps.map (·.1)).Nodup) :
    ∀ b : List State, (∀ s ∈ b, ∀ x ∈ ps, s.urn ≠ M.urn x.1) → IntactFrom E b (ps.map fun x => M.provider x.1 x.2.1 x.2.2) := by
  induction ps with
  | nil => exact fun b _ => trivial
  | cons x ps ih =>
    intro b hb
    rw [List.map_cons, List.nodup_cons] at h
    refine ⟨⟨fun _ => hM.valid _, .inl rfl, .inl rfl, fun d hd => (by cases hd), .inr fun s hs => hb s hs x List.mem_cons_self⟩, ih h.2 _ fun s hs y hy => ?_⟩
    rcases List.mem_append.mp hs with hs | hs
    · exact hb s hs y (List.mem_cons_of_mem _ hy)
    · rw [List.mem_singleton.mp hs]
      intro e
      exact h.1 (List.mem_map.mpr ⟨y, hy, (hM.inj _ _ e).symm⟩)

/-- **C200** The resources of a checkpoint in which everything refers to what is before it still do after a migration. Missing: checkpoints in which a
resource has the URN of the new default provider, see below. -/
theorem migrate_intact_partial {M : Migration} {E : Env} (hM : M.Sound E) {l out : List State} (h : M.migrate l = .ok out) (hI : Intact E l) (hc : M.Clear l) :
    Intact E out := by
  obtain ⟨new, refs, A, e⟩ := migrate_form h
  obtain ⟨ps, h1, h2, h3, -⟩ := A.packages
  rw [intact_iff, e, Snapshot.intactFrom_append]
  refine ⟨h1 ▸ new_intact hM ps h2 [] (fun s hs => (by cases hs)), ?_⟩
  rw [intactFrom_iff]
  intro pre' s' post' he
  obtain ⟨pre, rest, hl, hpre, hrest⟩ := List.map_eq_append_iff.mp he
  obtain ⟨s, post, hl2, hs, hpost⟩ := List.map_eq_cons_iff.mp hrest
  have hB := hI pre s post (by rw [hl, hl2])
  have hsl : s ∈ l := by rw [hl, hl2]; simp
  have K := kept A hsl
  have hsub : ∀ x ∈ pre, ∃ y ∈ [] ++ new ++ pre', y.urn = x.urn ∧ y.id = x.id ∧ y.type = x.type := by
    intro x hx
    refine ⟨M.fill (M.rewrite refs x), ?_, ?_⟩
    · rw [← hpre]
      exact List.mem_append_right _ (List.mem_map_of_mem hx)
    · rw [fill_same, rewrite_same]
      exact ⟨rfl, rfl, rfl⟩
  have hself : s'.urn = s.urn ∧ s'.id = s.id ∧ s'.type = s.type ∧ s'.parent = s.parent ∧ s'.deps = s.deps ∧ s'.delete = s.delete := by
    rw [← hs, fill_same, rewrite_same]
    exact ⟨rfl, rfl, rfl, rfl, rfl, rfl⟩
  refine ⟨fun ht => ?_, ?_, ?_, fun d hd => ?_, ?_⟩
  · rw [hself.1]; rw [hself.2.2.1] at ht
    exact hB.referenceable ht
  · cases hn : M.needs s with
    | true =>
      obtain ⟨p, hp, h4, h5, h6⟩ := K.gets hn
      rw [hs] at h6
      refine .inr ⟨_, h6, p, ?_, ?_, rfl, rfl⟩
      · simp [hp]
      · rw [h4]; exact hM.type _
    | false =>
      have := K.provider hn
      rw [hs] at this
      rw [this]
      rcases hB.provider with h7 | ⟨r, h7, x, hx, hP⟩
      · exact .inl h7
      · refine .inr ⟨r, h7, ?_⟩
        rcases List.mem_append.mp hx with hx | hx
        · obtain ⟨y, hy, e1, e2, e3⟩ := hsub x hx
          exact ⟨y, List.mem_append_left _ hy, by rw [e3]; exact hP.1, e1.trans hP.2.1, e2.trans hP.2.2⟩
        · rw [List.mem_singleton.mp hx] at hP
          exact ⟨s', by simp, by rw [hself.2.2.1]; exact hP.1, hself.1.trans hP.2.1, hself.2.1.trans hP.2.2⟩
  · rw [hself.2.2.2.1]
    rcases hB.parent with h7 | ⟨x, hx, ex⟩
    · exact .inl h7
    · obtain ⟨y, hy, e1, -⟩ := hsub x hx
      exact .inr ⟨y, hy, e1.trans ex⟩
  · rw [hself.2.2.2.2.1] at hd
    obtain ⟨x, hx, ex⟩ := hB.deps d hd
    obtain ⟨y, hy, e1, -⟩ := hsub x hx
    exact ⟨y, hy, e1.trans ex⟩
  · rw [hself.2.2.2.2.2, hself.1]
    rcases hB.unique with h7 | h7
    · exact .inl h7
    · cases hd : s.delete with
      | true => exact .inl rfl
      | false =>
        refine .inr fun y hy => ?_
        rw [List.nil_append] at hy
        rcases List.mem_append.mp hy with hy | hy
        · rw [h1] at hy
          obtain ⟨x, hx, ex⟩ := List.mem_map.mp hy
          obtain ⟨-, -, t, ht, htn, hpt⟩ := h3 x hx
          intro e'
          refine hc s hsl hd t ht htn ?_
          rw [← e', ← ex, hpt]; rfl
        · rw [← hpre] at hy
          obtain ⟨x, hx, ex⟩ := List.mem_map.mp hy
          rw [← ex, fill_same, rewrite_same]
          exact h7 x hx

theorem mapBuilt_iff (l : List State) (seen : List String) : mapBuilt l seen = true ↔
    (∀ s ∈ l, s.delete = false → s.urn ∉ seen) ∧ l.Pairwise fun a b => a.delete = false → b.delete = false → a.urn ≠ b.urn := by
  induction l generalizing seen with
  | nil => simp [mapBuilt]
  | cons s l ih =>
    unfold mapBuilt
    rw [List.pairwise_cons]
    cases hd : s.delete with
    | true =>
      rw [if_pos rfl, ih]
      constructor
      · rintro ⟨a, b⟩
        refine ⟨fun t ht htd => ?_, fun t _ h => (by cases h), b⟩
        rcases List.mem_cons.mp ht with rfl | ht
        · rw [hd] at htd; cases htd
        · exact a t ht htd
      · rintro ⟨a, -, b⟩
        exact ⟨fun t ht => a t (List.mem_cons_of_mem _ ht), b⟩
    | false =>
      rw [if_neg (by simp)]
      by_cases hs : s.urn ∈ seen
      · rw [if_pos hs]
        exact ⟨fun h => (by cases h), fun h => absurd hs (h.1 s List.mem_cons_self hd)⟩
      · rw [if_neg hs, ih]
        constructor
        · rintro ⟨a, b⟩
          refine ⟨fun t ht htd => ?_, fun t ht _ htd e => ?_, b⟩
          · rcases List.mem_cons.mp ht with rfl | ht
            · exact hs
            · exact fun h => a t ht htd (List.mem_cons_of_mem _ h)
          · exact a t ht htd (by rw [← e]; exact List.mem_cons_self)
        · rintro ⟨a, c, b⟩
          refine ⟨fun t ht htd h => ?_, b⟩
          rcases List.mem_cons.mp h with h | h
          · exact c t ht rfl htd h.symm
          · exact a t (List.mem_cons_of_mem _ ht) htd h

/-- **C200** A deployment finds every resource that is not to be deleted by its URN, and refuses to start if and only if two of them have the same. -/
theorem map_built_iff (l : List State) : mapBuilt l [] = true ↔ l.Pairwise fun a b => a.delete = false → b.delete = false → a.urn ≠ b.urn := by
  rw [mapBuilt_iff]
  simp

/-- **C200** Migrating what was migrated changes nothing. -/
theorem migrate_idempotent {M : Migration} {E : Env} (hM : M.Sound E) {l out : List State} (h : M.migrate l = .ok out) : M.migrate out = .ok out := by
  obtain ⟨new, refs, A, e⟩ := migrate_form h
  have hneeds : ∀ s ∈ out, M.needs s = false := by
    intro s hs
    rw [e] at hs
    rcases List.mem_append.mp hs with hs | hs
    · obtain ⟨p, id, i, en, -⟩ := A.made s hs
      rw [en]
      simp [Migration.needs, Migration.provider, hM.isProv]
    · obtain ⟨x, hx, ex⟩ := List.mem_map.mp hs
      have K := kept A hx
      rw [ex] at K
      cases hn : M.needs x with
      | true =>
        obtain ⟨p, -, -, -, h6⟩ := K.gets hn
        unfold Migration.needs
        rw [h6]; simp
      | false =>
        have hp := K.provider hn
        have h1 : s.urn = x.urn := by rw [K.same]
        have h2 : s.custom = x.custom := by rw [K.same]
        unfold Migration.needs at hn ⊢
        rw [h1, h2, hp]
        exact hn
  have hfill : ∀ s ∈ out, M.fill s = s := by
    intro s hs
    rw [e] at hs
    rcases List.mem_append.mp hs with hs | hs
    · obtain ⟨p, id, i, en, -⟩ := A.made s hs
      rw [en]; exact fill_provider M p id i
    · obtain ⟨x, hx, ex⟩ := List.mem_map.mp hs
      rw [← ex]
      generalize M.rewrite refs x = y
      unfold Migration.fill
      by_cases hc : (M.isProv y.urn && !M.empty y.inputs && M.empty y.outputs) = true
      · rw [if_pos hc]
        simp only [Bool.and_eq_true, Bool.not_eq_true'] at hc
        rw [if_neg]
        simp [hc.1.2]
      · rw [if_neg hc, if_neg hc]
  have hadd : ∀ (k : List State), (∀ s ∈ k, M.needs s = false) → ∀ rf n, M.add k rf n = .ok ([], k) := by
    intro k
    induction k with
    | nil => exact fun _ _ _ => rfl
    | cons s k ih =>
      intro hk rf n
      unfold Migration.add
      rw [if_neg (by rw [hk s List.mem_cons_self]; simp), ih (fun t ht => hk t (List.mem_cons_of_mem _ ht))]
  unfold Migration.migrate
  rw [hadd out hneeds]
  simp only [List.nil_append]
  congr 1
  conv => rhs; rw [← List.map_id out]
  exact List.map_congr_left hfill

/-! ## Examples and findings -/

def bare (urn : String) : State :=
  { type := "t", urn := urn, custom := true, delete := false, id := "1", inputs := "{}", outputs := "{}", parent := "", protect := false,
    external := false, deps := [], provider := .none, propDeps := [], pendingReplacement := false, aliases := [], timeouts := "", retainOnDelete := false, rest := "" }

/-- URNs of providers begin with `default `, the package of a resource is the first letter of its URN. -/
def demoMigration (info : String → Option (Option String × String)) : Migration :=
  ⟨fun u => "default ".toList.isPrefixOf u.toList, fun u => String.ofList (u.toList.take 1), fun p => "default " ++ p, fun p => "provider " ++ p, fun _ => some "{}", info,
    fun c v _ => c ++ v, fun n => toString n, fun s => s == "{}"⟩

def demoEnv : Env := ⟨fun t => "provider ".toList.isPrefixOf t.toList, fun u => "default ".toList.isPrefixOf u.toList⟩

theorem prefix_append (a b : String) : a.toList.isPrefixOf (a ++ b).toList = true := by
  rw [String.toList_append, List.isPrefixOf_iff_prefix]
  exact List.prefix_append _ _

theorem append_inj (a : String) {b c : String} (h : a ++ b = a ++ c) : b = c := by
  have := congrArg String.toList h
  rw [String.toList_append, String.toList_append] at this
  exact String.toList_injective (List.append_cancel_left this)

example : (demoMigration fun _ => none).Sound demoEnv :=
  ⟨fun _ => prefix_append _ _, fun _ => prefix_append _ _, fun _ => prefix_append _ _, fun _ _ h => append_inj _ h⟩

example : (demoMigration fun p => if p = "a" then some (some "1.0.0", "") else none).migrate [bare "a1", bare "b1", { bare "a2" with deps := ["a1"] }, { bare "c" with custom := false }] =
    .ok [(demoMigration fun _ => none).provider "a" "0" "{}1.0.0", (demoMigration fun _ => none).provider "b" "1" "{}",
      { bare "a1" with provider := .ref ⟨"default a", "0"⟩ }, { bare "b1" with provider := .ref ⟨"default b", "1"⟩ },
      { bare "a2" with deps := ["a1"], provider := .ref ⟨"default a", "0"⟩ }, { bare "c" with custom := false }] := by decide +kernel

example : (demoMigration fun _ => none).Clear [bare "a1", bare "b1", { bare "a2" with deps := ["a1"] }] := by
  intro s hs hd t ht hn
  simp only [List.mem_cons, List.not_mem_nil, or_false] at hs ht
  rcases hs with rfl | rfl | rfl <;> rcases ht with rfl | rfl | rfl <;> decide +kernel

/-- **C200, finding** If a checkpoint has a default provider of a package and a resource of it that has none, a second one with the same URN is added: the
deployment refuses to start although the checkpoint was in order. -/
theorem migrate_duplicates : ∃ l out : List State, Intact demoEnv l ∧ mapBuilt l [] = true ∧ (demoMigration fun _ => none).migrate l = .ok out ∧ mapBuilt out [] = false := by
  refine ⟨[(demoMigration fun _ => none).provider "a" "7" "{}", bare "a1"], _, ?_, by decide +kernel, rfl, by decide +kernel⟩
  exact (Snapshot.verify_ok_iff demoEnv ⟨_, []⟩).mp (by decide +kernel)

/-- **C200, finding** If the manifest has the plugin without a version, the deployment crashes. -/
theorem migrate_panics : (demoMigration fun _ => some (none, "")).migrate [bare "a1"] = .error .panic := by decide +kernel

end Pulumi.Providers
