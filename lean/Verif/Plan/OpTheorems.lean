import Verif.Plan.Ops
/-!
# Plans: what an update may do, and that a plan lets its own update through
-/
namespace Pulumi.Plan
open Pulumi.StepGen (Step Prev Opts St Ev)
open Pulumi.DepGraph (deletions)
open Pulumi.Snapshot (State)

theorem constrainedTo_iff (op c : Op) : constrainedTo op c = true ↔ NoMore op c := by
  constructor
  · intro h
    cases c <;> simp only [constrainedTo, decide_eq_true_eq] at h <;>
      first
      | (subst h; exact .asPlanned _)
      | (rcases h with h | h <;> subst h <;> first | exact .asPlanned _ | exact .nothing (by simp))
      | (rcases h with h | h | h <;> subst h <;> first | exact .asPlanned _ | exact .nothing (by simp) | exact .update (by simp))
  · intro h
    cases h with
    | asPlanned => cases op <;> rfl
    | nothing hm => cases c <;> simp at hm <;> rfl
    | update hm => cases c <;> simp at hm <;> rfl

theorem noMore_same {op : Op} (h : NoMore op .same) : op = .same := by cases h <;> simp_all

theorem lookup_put (m : Plans) (urn u : String) (ops : List Op) :
    (m.put urn ops).lookup u = if u = urn then some ops else m.lookup u := by
  unfold Plans.put
  rw [List.lookup_cons]
  by_cases h : u = urn
  · subst h; simp
  · have : (u == urn) = false := by simpa using h
    rw [this, if_neg h]
    induction m with
    | nil => rfl
    | cons e m ih =>
      obtain ⟨k, v⟩ := e
      by_cases hk : k = urn
      · subst hk
        rw [List.filter_cons, if_neg (by simp), List.lookup_cons, this]
        simpa using ih
      · rw [List.filter_cons, if_pos (by simpa using hk), List.lookup_cons, List.lookup_cons]
        cases (u == k)
        · simpa using ih
        · rfl

/-! ## What an update with a plan may do -/

/-- what is left of a plan after some operations -/
theorem enforce_spec : ∀ (es : List PEv) (m m' : Plans), enforce m es = some m' → ∀ urn,
    match m.lookup urn with
    | some ops => ∃ done rest, ops = done ++ rest ∧ m'.lookup urn = some rest ∧ Within (opsOf urn es) done ∧
        (opsOf urn es).length = done.length
    | none => m'.lookup urn = none ∧ ∀ op ∈ opsOf urn es, op = .same := by
  have one : ∀ (es : List PEv) (m m' : Plans) (u : String) (op : Op) (urn : String),
      (∀ m m', enforce m es = some m' → ∀ urn,
        match m.lookup urn with
        | some ops => ∃ done rest, ops = done ++ rest ∧ m'.lookup urn = some rest ∧ Within (opsOf urn es) done ∧
            (opsOf urn es).length = done.length
        | none => m'.lookup urn = none ∧ ∀ op ∈ opsOf urn es, op = .same) →
      (match enforce1 m u op with
        | some m => enforce m es
        | none => none) = some m' →
      match m.lookup urn with
      | some ops => ∃ done rest, ops = done ++ rest ∧ m'.lookup urn = some rest ∧
          Within (if u = urn then op :: opsOf urn es else opsOf urn es) done ∧
          (if u = urn then op :: opsOf urn es else opsOf urn es).length = done.length
      | none => m'.lookup urn = none ∧ ∀ x ∈ (if u = urn then op :: opsOf urn es else opsOf urn es), x = .same := by
    intro es m m' u op urn ih h
    unfold enforce1 at h
    cases hl : m.lookup u with
    | none =>
      rw [hl] at h
      simp only at h
      by_cases hc : constrainedTo op .same = true
      · rw [if_pos hc] at h
        have := ih m m' h urn
        have hs := noMore_same ((constrainedTo_iff op .same).mp hc)
        by_cases hu : u = urn
        · subst hu
          rw [hl] at this ⊢
          simp only [if_true]
          refine ⟨this.1, ?_⟩
          simpa [hs] using this.2
        · simp only [if_neg hu]
          exact this
      · rw [if_neg hc] at h; cases h
    | some ops =>
      rw [hl] at h
      cases ops with
      | nil => cases h
      | cons c cs =>
        simp only at h
        by_cases hc : constrainedTo op c = true
        · rw [if_pos hc] at h
          have := ih _ m' h urn
          rw [lookup_put] at this
          by_cases hu : u = urn
          · subst hu
            rw [hl]
            rw [if_pos rfl] at this
            simp only [if_true] at this ⊢
            obtain ⟨done, rest, e1, e2, e3, e4⟩ := this
            exact ⟨c :: done, rest, by rw [e1]; rfl, e2, .next ((constrainedTo_iff op c).mp hc) e3, by simp [e4]⟩
          · rw [if_neg (fun e => hu e.symm)] at this
            simp only [if_neg hu]
            exact this
        · rw [if_neg hc] at h; cases h
  intro es
  induction es with
  | nil =>
    intro m m' h urn
    simp only [enforce, Option.some.injEq] at h
    subst h
    cases hl : m.lookup urn with
    | none => exact ⟨rfl, by simp [opsOf]⟩
    | some ops => exact ⟨[], ops, rfl, rfl, .done _, rfl⟩
  | cons e es ih =>
    intro m m' h urn
    cases e with
    | register u => exact ih m m' h urn
    | condemn u => exact ih m m' h urn
    | step u op a => exact one es m m' u op urn ih h
    | del u op => exact one es m m' u op urn ih h

/-- C172: an update that is let through does no more than its plan says. One after the other, what it does to a resource is no more than
what was planned for it; a resource there is no plan for is left as it is; and what was planned is done, but for deletions of what is not
there. -/
theorem updates_keep_to_the_plan (m m' : Plans) (es : List PEv) (prev : List String) (h : enforce m es = some m')
    (hc : complete prev m' = true) (urn : String) :
    match m.lookup urn with
    | some ops => Within (opsOf urn es) ops ∧ (ops.length = (opsOf urn es).length ∨
        (ops.length = (opsOf urn es).length + 1 ∧ ops.getLast? = some .delete ∧ urn ∉ prev))
    | none => ∀ op ∈ opsOf urn es, op = .same := by
  have hs := enforce_spec es m m' h urn
  cases hl : m.lookup urn with
  | none => rw [hl] at hs; exact hs.2
  | some ops =>
    rw [hl] at hs
    obtain ⟨done, rest, e1, e2, e3, e4⟩ := hs
    have hmono : ∀ a b c, Within a b → Within a (b ++ c) := by
      intro a b c hw
      induction hw with
      | done r => exact .done _
      | next h1 _ ih => exact .next h1 ih
    refine ⟨by rw [e1]; exact hmono _ _ _ e3, ?_⟩
    unfold complete at hc
    rw [List.all_eq_true] at hc
    have := hc (urn, rest) (Props.lookup_mem e2)
    simp only [Bool.or_eq_true, Bool.and_eq_true, decide_eq_true_eq, Bool.not_eq_true', decide_eq_false_iff_not] at this
    rcases this with h | ⟨h1, h2⟩
    · left; rw [e1, h, List.append_nil, e4]
    · right
      refine ⟨by rw [e1, h1]; simp [e4], by rw [e1, h1]; simp, h2⟩

theorem within_mem {ops cs : List Op} (h : Within ops cs) : ∀ op ∈ ops, ∃ c ∈ cs, NoMore op c := by
  induction h with
  | done => intro op h; cases h
  | next h1 _ ih =>
    intro op hm
    rcases List.mem_cons.mp hm with rfl | hm
    · exact ⟨_, List.mem_cons_self, h1⟩
    · obtain ⟨c, hc, hn⟩ := ih op hm
      exact ⟨c, List.mem_cons_of_mem _ hc, hn⟩

/-- C172: what was not planned for a resource is not done to it, unless it is nothing or an update: no resource is created, deleted,
replaced, imported or forgotten without the plan saying so, and none is updated unless it was to be updated or replaced. -/
theorem nothing_unplanned (m m' : Plans) (es : List PEv) (h : enforce m es = some m') (urn : String) (op : Op)
    (ho : op ∈ opsOf urn es) (hs : op ≠ .same) : ∃ ops, m.lookup urn = some ops ∧
      (op ∈ ops ∨ (op = .update ∧ ∃ c ∈ ops, c ∈ [Op.replace, .createReplacement, .deleteReplaced])) := by
  have hsp := enforce_spec es m m' h urn
  cases hl : m.lookup urn with
  | none => rw [hl] at hsp; exact absurd (hsp.2 op ho) hs
  | some ops =>
    rw [hl] at hsp
    obtain ⟨done, rest, e1, _, e3, _⟩ := hsp
    refine ⟨ops, rfl, ?_⟩
    obtain ⟨c, hc, hn⟩ := within_mem e3 op ho
    have hc' : c ∈ ops := by rw [e1]; exact List.mem_append_left _ hc
    cases hn with
    | asPlanned => exact .inl hc'
    | nothing _ => exact absurd rfl hs
    | update hm => exact .inr ⟨rfl, c, hc', hm⟩

example : enforce [("a", [.createReplacement, .replace]), ("b", [.delete]), ("c", [.update])]
    [.register "a", .step "a" .update none, .step "a" .same none, .register "c", .step "c" .same none, .register "d",
     .step "d" .same none] = some [("c", []), ("a", []), ("b", [.delete])] ∧
    complete ["a", "c", "d"] [("c", []), ("a", []), ("b", [.delete])] = true ∧
    complete ["a", "b", "c", "d"] [("c", []), ("a", []), ("b", [.delete])] = false ∧
    enforce [("a", [.update])] [.step "a" .createReplacement none] = none ∧ enforce [] [.step "a" .create none] = none := by
  decide

/-! ## The plan of an update lets that update through -/

/-- There are no aliases, and no resource is registered that something happened to before. -/
def Calm : List PEv → Prop
  | [] => True
  | .register _ :: es => Calm es
  | .condemn _ :: es => Calm es
  | .step u _ a :: es => a = none ∧ PEv.register u ∉ es ∧ Calm es
  | .del u _ :: es => PEv.register u ∉ es ∧ Calm es

theorem record_spec : ∀ (es : List PEv) (m m' : Plans), Calm es → record m es = some m' →
    (∀ u, PEv.register u ∈ es → m.lookup u = none ∨ m.lookup u = some []) → ∀ urn,
    (m'.lookup urn = none ∧ m.lookup urn = none ∧ opsOf urn es = []) ∨
      m'.lookup urn = some ((m.lookup urn).getD [] ++ opsOf urn es) := by
  intro es
  induction es with
  | nil =>
    intro m m' _ h _ urn
    simp only [record, Option.some.injEq] at h
    subst h
    cases hl : m.lookup urn with
    | none => exact .inl ⟨rfl, rfl, rfl⟩
    | some ops => exact .inr (by simp [opsOf])
  | cons e es ih =>
    intro m m' hc h hr urn
    cases e with
    | register u =>
      have := ih (m.put u []) m' hc h (fun v hv => by
        rw [lookup_put]
        by_cases hvu : v = u
        · right; rw [if_pos hvu]
        · rw [if_neg hvu]; exact hr v (List.mem_cons_of_mem _ hv)) urn
      rw [lookup_put] at this
      by_cases hu : urn = u
      · subst hu
        rw [if_pos rfl] at this
        rcases this with ⟨_, h2, _⟩ | h2
        · cases h2
        · right
          rw [h2]
          rcases hr urn List.mem_cons_self with h3 | h3 <;> rw [h3] <;> rfl
      · rw [if_neg hu] at this
        exact this
    | condemn u =>
      simp only [record] at h
      cases hl : m.lookup u with
      | some ops =>
        rw [hl] at h
        exact ih m m' hc h (fun v hv => hr v (List.mem_cons_of_mem _ hv)) urn
      | none =>
        rw [hl] at h
        have := ih (m.put u []) m' hc h (fun v hv => by
          rw [lookup_put]
          by_cases hvu : v = u
          · right; rw [if_pos hvu]
          · rw [if_neg hvu]; exact hr v (List.mem_cons_of_mem _ hv)) urn
        rw [lookup_put] at this
        by_cases hu : urn = u
        · subst hu
          rw [if_pos rfl] at this
          rcases this with ⟨_, h2, _⟩ | h2
          · cases h2
          · right
            rw [h2, hl]
            rfl
        · rw [if_neg hu] at this
          exact this
    | step u op a =>
      obtain ⟨ha, hnr, hc⟩ := hc
      subst ha
      simp only [record, Option.getD_none] at h
      cases hl : m.lookup u with
      | none => rw [hl] at h; cases h
      | some ops =>
        rw [hl] at h
        have := ih _ m' hc h (fun v hv => by
          rw [lookup_put]
          by_cases hvu : v = u
          · subst hvu; exact absurd hv hnr
          · rw [if_neg hvu]; exact hr v (List.mem_cons_of_mem _ hv)) urn
        rw [lookup_put] at this
        by_cases hu : urn = u
        · subst hu
          rw [if_pos rfl] at this
          rcases this with ⟨_, h2, _⟩ | h2
          · cases h2
          · right
            rw [h2, hl]
            simp [opsOf]
        · rw [if_neg hu] at this
          simp only [opsOf, if_neg (fun e => hu (Eq.symm e))]
          exact this
    | del u op =>
      obtain ⟨hnr, hc⟩ := hc
      simp only [record] at h
      have := ih _ m' hc h (fun v hv => by
        rw [lookup_put]
        by_cases hvu : v = u
        · subst hvu; exact absurd hv hnr
        · rw [if_neg hvu]; exact hr v (List.mem_cons_of_mem _ hv)) urn
      rw [lookup_put] at this
      by_cases hu : urn = u
      · subst hu
        rw [if_pos rfl] at this
        rcases this with ⟨_, h2, _⟩ | h2
        · cases h2
        · right
          rw [h2]
          simp [opsOf]
      · rw [if_neg hu] at this
        simp only [opsOf, if_neg (fun e => hu (Eq.symm e))]
        exact this

theorem noMore_refl (op : Op) : constrainedTo op op = true := (constrainedTo_iff op op).mpr (.asPlanned op)

/-- A plan that lists what happens, and nothing else, lets it happen. -/
theorem enforce_own : ∀ (es : List PEv) (m : Plans),
    (∀ u, m.lookup u = some (opsOf u es) ∨ (m.lookup u = none ∧ opsOf u es = [])) →
    ∃ m', enforce m es = some m' ∧ ∀ u, m'.lookup u = none ∨ m'.lookup u = some [] := by
  have one : ∀ (es : List PEv) (m : Plans) (v : String) (op : Op),
      (∀ m : Plans, (∀ u, m.lookup u = some (opsOf u es) ∨ (m.lookup u = none ∧ opsOf u es = [])) →
        ∃ m', enforce m es = some m' ∧ ∀ u, m'.lookup u = none ∨ m'.lookup u = some []) →
      (∀ u, m.lookup u = some (if v = u then op :: opsOf u es else opsOf u es) ∨
        (m.lookup u = none ∧ (if v = u then op :: opsOf u es else opsOf u es) = [])) →
      ∃ m', (match enforce1 m v op with
        | some m => enforce m es
        | none => none) = some m' ∧ ∀ u, m'.lookup u = none ∨ m'.lookup u = some [] := by
    intro es m v op ih h
    have hv := h v
    simp only [if_true] at hv
    rcases hv with hv | ⟨_, hv⟩
    · unfold enforce1
      rw [hv]
      simp only [noMore_refl, if_true]
      apply ih
      intro u
      rw [lookup_put]
      by_cases hu : u = v
      · left; rw [if_pos hu, hu]
      · rw [if_neg hu]
        have := h u
        rw [if_neg (fun e => hu e.symm)] at this
        exact this
    · cases hv
  intro es
  induction es with
  | nil =>
    intro m h
    refine ⟨m, rfl, fun u => ?_⟩
    rcases h u with h | h
    · exact .inr h
    · exact .inl h.1
  | cons e es ih =>
    intro m h
    cases e with
    | register u => exact ih m h
    | condemn u => exact ih m h
    | step v op a => exact one es m v op ih h
    | del v op => exact one es m v op ih h

theorem nodup_put (m : Plans) (urn : String) (ops : List Op) (h : (m.map (·.1)).Nodup) : ((m.put urn ops).map (·.1)).Nodup := by
  unfold Plans.put
  rw [List.map_cons, List.nodup_cons]
  refine ⟨?_, ?_⟩
  · rw [List.mem_map]
    rintro ⟨e, he, h1⟩
    rw [List.mem_filter] at he
    simp [h1] at he
  · exact List.Nodup.sublist (List.Sublist.map _ List.filter_sublist) h

theorem enforce_nodup : ∀ (es : List PEv) (m m' : Plans), enforce m es = some m' → (m.map (·.1)).Nodup → (m'.map (·.1)).Nodup := by
  have one : ∀ (es : List PEv) (m m' : Plans) (v : String) (op : Op),
      (∀ m m' : Plans, enforce m es = some m' → (m.map (·.1)).Nodup → (m'.map (·.1)).Nodup) →
      (match enforce1 m v op with
        | some m => enforce m es
        | none => none) = some m' → (m.map (·.1)).Nodup → (m'.map (·.1)).Nodup := by
    intro es m m' v op ih h hn
    unfold enforce1 at h
    split at h
    · next m₁ hm =>
      split at hm
      · cases hm
      · split at hm
        · injection hm with hm; subst hm; exact ih _ _ h (nodup_put _ _ _ hn)
        · cases hm
      · split at hm
        · injection hm with hm; subst hm; exact ih _ _ h hn
        · cases hm
    · cases h
  intro es
  induction es with
  | nil => intro m m' h hn; simp only [enforce, Option.some.injEq] at h; subst h; exact hn
  | cons e es ih =>
    intro m m' h hn
    cases e with
    | register u => exact ih m m' h hn
    | condemn u => exact ih m m' h hn
    | step v op a => exact one es m m' v op ih h hn
    | del v op => exact one es m m' v op ih h hn

theorem record_nodup : ∀ (es : List PEv) (m m' : Plans), record m es = some m' → (m.map (·.1)).Nodup → (m'.map (·.1)).Nodup := by
  intro es
  induction es with
  | nil => intro m m' h hn; simp only [record, Option.some.injEq] at h; subst h; exact hn
  | cons e es ih =>
    intro m m' h hn
    cases e <;> simp only [record] at h
    · exact ih _ _ h (nodup_put _ _ _ hn)
    · split at h
      · exact ih _ _ h hn
      · exact ih _ _ h (nodup_put _ _ _ hn)
    · split at h
      · exact ih _ _ h (nodup_put _ _ _ hn)
      · cases h
    · exact ih _ _ h (nodup_put _ _ _ hn)

/-- The plan a preview makes of what happens in it lets the same happen in the update, and asks for nothing more. -/
theorem plan_allows_its_own_steps (es : List PEv) (m : Plans) (prev : List String) (hc : Calm es) (h : record [] es = some m) :
    ∃ m', enforce m es = some m' ∧ complete prev m' = true := by
  have hs := record_spec es [] m hc h (fun _ _ => .inl rfl)
  obtain ⟨m', h1, h2⟩ := enforce_own es m (fun u => by
    rcases hs u with ⟨a, _, b⟩ | a
    · exact .inr ⟨a, b⟩
    · exact .inl (by simpa using a))
  refine ⟨m', h1, ?_⟩
  have hn := enforce_nodup es m m' h1 (record_nodup es [] m h (by simp))
  unfold complete
  rw [List.all_eq_true]
  intro e he
  have hl : m'.lookup e.1 = some e.2 := Props.lookup_of_mem hn he
  rcases h2 e.1 with h | h <;> rw [hl] at h
  · cases h
  · injection h with h; simp [h]

end Pulumi.Plan
