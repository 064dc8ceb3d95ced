import Verif.Plan.ValueLemmas
/-!
# Plans: what the inputs of an update may be
-/
namespace Pulumi.Plan
open Pulumi.Engine (EV Blob RefId)
open Pulumi.Props

variable (hash : Blob → Option String)

theorem lookup_isSome_iff {α : Type} (k : String) (l : List (String × α)) : (l.lookup k).isSome = true ↔ ∃ v, (k, v) ∈ l := by
  constructor
  · intro h
    obtain ⟨v, hv⟩ := Option.isSome_iff_exists.mp h
    exact ⟨v, lookup_mem hv⟩
  · rintro ⟨v, hv⟩
    cases hl : l.lookup k with
    | some _ => rfl
    | none => exact absurd (List.mem_map_of_mem (f := (·.1)) hv) (lookup_none_iff.mp hl)

/-- What it takes for `checkDiff` not to complain -/
theorem checkDiff_ok (olds news : List (String × EV)) (pd : PlanDiff) : checkDiff hash olds news pd = [] ↔
    (∀ k y, (k, y) ∈ (between hash olds news).adds → ∃ e, pd.adds.lookup k = some e ∧ eqU hash e y = true) ∧
    (∀ k v, (k, v) ∈ (between hash olds news).dels → k ∈ pd.dels ∨ ∃ e, pd.ups.lookup k = some e ∧ isComputed e = true) ∧
    (∀ k u, (k, u) ∈ (between hash olds news).ups → (∃ e, pd.ups.lookup k = some e ∧ eqU hash e (newOf u) = true) ∨
      (pd.ups.lookup k = none ∧ ∃ e, pd.adds.lookup k = some e ∧ eqU hash e (newOf u) = true)) ∧
    (∀ k e, (k, e) ∈ pd.adds → (∃ y, (k, y) ∈ (between hash olds news).adds) ∨ (∃ u, (k, u) ∈ (between hash olds news).ups) ∨
      strays hash e (news.lookup k) = false) ∧
    (∀ k e, (k, e) ∈ pd.ups → (∃ u, (k, u) ∈ (between hash olds news).ups) ∨
      ((¬ ∃ y, (k, y) ∈ (between hash olds news).adds) ∧ strays hash e (news.lookup k) = false)) ∧
    (∀ k, k ∈ pd.dels → (∃ v, (k, v) ∈ (between hash olds news).dels) ∨ ((¬ ∃ y, (k, y) ∈ (between hash olds news).adds) ∧
      (¬ ∃ u, (k, u) ∈ (between hash olds news).ups) ∧ ¬ ∃ y, (k, y) ∈ (between hash olds news).sames)) := by
  have hnil : ∀ {α : Type} (p : String × α → Bool) (f : String × α → String × Char) (l : List (String × α)),
      (l.filter p).map f = [] ↔ ∀ k v, (k, v) ∈ l → p (k, v) = false := by
    intro α p f l
    rw [List.map_eq_nil_iff, List.filter_eq_nil_iff]
    exact ⟨fun h k v hm => by simpa using h (k, v) hm, fun h kv hm => by simpa using h kv.1 kv.2 hm⟩
  unfold checkDiff
  simp only [List.append_eq_nil_iff]
  rw [hnil, hnil, hnil, hnil, hnil, List.map_eq_nil_iff, List.filter_eq_nil_iff]
  simp only [and_assoc]
  refine and_congr ?_ (and_congr ?_ (and_congr ?_ (and_congr ?_ (and_congr ?_ ?_))))
  · refine forall_congr' fun k => forall_congr' fun y => imp_congr Iff.rfl ?_
    cases pd.adds.lookup k <;> simp [strays]
  · refine forall_congr' fun k => forall_congr' fun y => imp_congr Iff.rfl ?_
    cases pd.ups.lookup k with
    | none => simp
    | some e => by_cases h : k ∈ pd.dels <;> simp [h]
  · refine forall_congr' fun k => forall_congr' fun y => imp_congr Iff.rfl ?_
    cases pd.ups.lookup k <;> cases pd.adds.lookup k <;> simp [strays]
  · refine forall_congr' fun k => forall_congr' fun e => imp_congr Iff.rfl ?_
    rw [← lookup_isSome_iff, ← lookup_isSome_iff]
    unfold between
    cases List.lookup k ((mapDiffU hash olds news).getD ⟨[], [], [], []⟩).adds <;>
      cases List.lookup k ((mapDiffU hash olds news).getD ⟨[], [], [], []⟩).ups <;> simp
  · refine forall_congr' fun k => forall_congr' fun e => imp_congr Iff.rfl ?_
    rw [← lookup_isSome_iff, ← lookup_isSome_iff]
    unfold between
    cases List.lookup k ((mapDiffU hash olds news).getD ⟨[], [], [], []⟩).adds <;>
      cases List.lookup k ((mapDiffU hash olds news).getD ⟨[], [], [], []⟩).ups <;> simp
  · refine forall_congr' fun k => imp_congr Iff.rfl ?_
    rw [← lookup_isSome_iff, ← lookup_isSome_iff, ← lookup_isSome_iff, ← lookup_isSome_iff]
    unfold between
    cases List.lookup k ((mapDiffU hash olds news).getD ⟨[], [], [], []⟩).adds <;>
      cases List.lookup k ((mapDiffU hash olds news).getD ⟨[], [], [], []⟩).ups <;>
      cases List.lookup k ((mapDiffU hash olds news).getD ⟨[], [], [], []⟩).dels <;>
      cases List.lookup k ((mapDiffU hash olds news).getD ⟨[], [], [], []⟩).sames <;> simp

/-- A property the plan says nothing of -/
def PlanDiff.silent (pd : PlanDiff) (k : String) : Prop := k ∉ pd.adds.map (·.1) ∧ k ∉ pd.dels ∧ k ∉ pd.ups.map (·.1)

/-- A plan whose values Go can hold -/
def PlanDiff.proper (pd : PlanDiff) : Prop :=
  ∀ k e, (k, e) ∈ pd.adds ∨ (k, e) ∈ pd.ups → Props.proper hash e = true ∧ noOutputs e = true

variable {hash}

theorem value_of_lookup {a : List (String × EV)} {k : String} {v : EV} (h : a.lookup k = some v) : valueAt a k = v := by
  simp [valueAt, h]

theorem value_of_none {a : List (String × EV)} {k : String} (h : a.lookup k = none) : valueAt a k = .null := by
  simp [valueAt, h]

/-- C174: if an update is let through then its inputs are what the plan says. A property the plan adds or updates has the value planned,
or any where that was unknown; a property the plan says nothing of is what it was; a property the plan deletes is gone. The last is so
only if something changes at all: see `planned_delete_forgotten`. -/
theorem inputs_keep_to_the_plan_partial (olds news : List (String × EV)) (pd : PlanDiff)
    (po : proper hash (.object olds) = true) (pn : proper hash (.object news) = true) (oo : noOutputs (.object olds) = true)
    (on : noOutputs (.object news) = true) (ko : Known (.object olds)) (kn : Known (.object news)) (pp : pd.proper hash) (ok : pd.ok)
    (h : checkDiff hash olds news pd = []) (k : String) :
    (∀ e, (k, e) ∈ pd.adds ∨ (k, e) ∈ pd.ups → Resolves hash e (valueAt news k)) ∧
    (pd.silent k → Same hash (valueAt olds k) (valueAt news k)) ∧
    (k ∈ pd.dels → valueAt news k = .null ∨ Same hash (.object olds) (.object news)) := by
  obtain ⟨c1, c2, c3, c4, c5, c6⟩ := (checkDiff_ok hash olds news pd).mp h
  obtain ⟨s1, s2, s3, s4, s5⟩ := between_sorts hash olds news po pn oo on k
  have eq_res : ∀ e y, Props.proper hash e = true → noOutputs e = true → news.lookup k = some y → eqU hash e y = true →
      Resolves hash e (valueAt news k) := by
    intro e y pe oe hy he
    have := value_of_lookup hy
    exact resolves_of_eqU hash e _ pe (proper_at hash pn k) oe (noOutputs_at on k) (known_at kn k) (by rw [this]; exact he)
  have quiet : ∀ e, Props.proper hash e = true → noOutputs e = true → strays hash e (news.lookup k) = false →
      Resolves hash e (valueAt news k) := by
    intro e pe oe hs
    cases hy : news.lookup k with
    | some y =>
      rw [hy] at hs
      simp only [strays, Bool.not_eq_eq_eq_not, Bool.not_false] at hs
      exact eq_res e y pe oe hy hs
    | none =>
      rw [hy] at hs
      simp only [strays, Bool.not_eq_eq_eq_not, Bool.not_false] at hs
      cases e <;> first | (cases hs; done) | exact .unknown _ _
  unfold PlanDiff.ok at ok
  rw [List.nodup_append, List.nodup_append] at ok
  obtain ⟨⟨na, nd, dad⟩, nu, dau⟩ := ok
  refine ⟨?_, ?_, ?_⟩
  · rintro e (he | he)
    · obtain ⟨pe, oe⟩ := pp k e (.inl he)
      have le := lookup_of_mem na he
      rcases c4 k e he with ⟨y, hy⟩ | ⟨u, hu⟩ | hs
      · obtain ⟨e', h1, h2⟩ := c1 k y hy
        rw [le] at h1
        injection h1 with h1
        subst h1
        exact eq_res e y pe oe ((s1 y).mp hy).1 h2
      · obtain ⟨v, w, _, _, hw, _, hd⟩ := (s3 u).mp hu
        rcases c3 k u hu with ⟨e', h1, _⟩ | ⟨_, e', h1, h2⟩
        · exact absurd rfl (dau k (List.mem_append_left _ (List.mem_map_of_mem (f := (·.1)) he)) k
            (List.mem_map_of_mem (f := (·.1)) (lookup_mem h1)))
        · rw [le] at h1
          injection h1 with h1
          subst h1
          rw [newOf_diffU hash hd] at h2
          exact eq_res e w pe oe hw h2
      · exact quiet e pe oe hs
    · obtain ⟨pe, oe⟩ := pp k e (.inr he)
      have le := lookup_of_mem nu he
      rcases c5 k e he with ⟨u, hu⟩ | ⟨_, hs⟩
      · obtain ⟨v, w, _, _, hw, _, hd⟩ := (s3 u).mp hu
        rcases c3 k u hu with ⟨e', h1, h2⟩ | ⟨h1, _⟩
        · rw [le] at h1
          injection h1 with h1
          subst h1
          rw [newOf_diffU hash hd] at h2
          exact eq_res e w pe oe hw h2
        · rw [le] at h1; cases h1
      · exact quiet e pe oe hs
  · rintro ⟨q1, q2, q3⟩
    have no_add : ∀ y, (k, y) ∉ (between hash olds news).adds := by
      intro y hy
      obtain ⟨e, he, _⟩ := c1 k y hy
      exact q1 (List.mem_map_of_mem (f := (·.1)) (lookup_mem he))
    have no_del : ∀ v, (k, v) ∉ (between hash olds news).dels := by
      intro v hv
      rcases c2 k v hv with hd | ⟨e, he, _⟩
      · exact q2 hd
      · exact q3 (List.mem_map_of_mem (f := (·.1)) (lookup_mem he))
    have no_up : ∀ u, (k, u) ∉ (between hash olds news).ups := by
      intro u hu
      rcases c3 k u hu with ⟨e, he, _⟩ | ⟨_, e, he, _⟩
      · exact q3 (List.mem_map_of_mem (f := (·.1)) (lookup_mem he))
      · exact q1 (List.mem_map_of_mem (f := (·.1)) (lookup_mem he))
    have nov := noOutputs_at oo k
    have now := noOutputs_at on k
    cases hv : olds.lookup k with
    | none =>
      rw [value_of_none hv]
      cases hw : news.lookup k with
      | none => rw [value_of_none hw]; exact .null
      | some w =>
        rw [value_of_lookup hw] at now ⊢
        cases hh : hasValue w with
        | true => exact absurd ((s1 w).mpr ⟨hw, hh, .inl hv⟩) (no_add w)
        | false => rw [no_value now hh]; exact .null
    | some v =>
      have kv := known_at ko k
      rw [value_of_lookup hv] at nov kv ⊢
      cases hw : news.lookup k with
      | none =>
        rw [value_of_none hw]
        cases hh : hasValue v with
        | true =>
          have hc : isComputed v = false := by cases kv <;> rfl
          exact absurd ((s2 v).mpr ⟨hv, hh, .inl ⟨hw, hc⟩⟩) (no_del v)
        | false => rw [no_value nov hh]; exact .null
      | some w =>
        have kw := known_at kn k
        have pw := proper_at hash pn k
        have pv := proper_at hash po k
        rw [value_of_lookup hv] at pv
        rw [value_of_lookup hw] at now kw pw ⊢
        cases he : eqU hash v w with
        | true => exact same_of_resolves hash (resolves_of_eqU hash v w pv pw nov now kw he) kv
        | false =>
          exfalso
          cases hhv : hasValue v with
          | false =>
            cases hhw : hasValue w with
            | false => rw [no_value nov hhv, no_value now hhw] at he; simp [eqU] at he
            | true => exact no_add w ((s1 w).mpr ⟨hw, hhw, .inr ⟨v, hv, hhv, he⟩⟩)
          | true =>
            cases hhw : hasValue w with
            | false => exact no_del v ((s2 v).mpr ⟨hv, hhv, .inr ⟨w, hw, hhw, he⟩⟩)
            | true =>
              cases hd : diffU hash v w with
              | none => rw [(no_diffU hash v w pv pw now).mp hd] at he; cases he
              | some u => exact no_up u ((s3 u).mpr ⟨v, w, hv, hhv, hw, hhw, hd⟩)
  · intro hk
    by_cases hd : mapDiffU hash olds news = none
    · right
      have : eqU hash (.object olds) (.object news) = true := by
        rw [← no_diffU hash _ _ po pn on]
        simp only [diffU, Option.map_eq_none_iff]
        exact hd
      exact same_of_resolves hash (resolves_of_eqU hash _ _ po pn oo on kn this) ko
    · left
      have nov := noOutputs_at oo k
      have now := noOutputs_at on k
      cases hw : news.lookup k with
      | none => exact value_of_none hw
      | some w =>
        rw [value_of_lookup hw] at now ⊢
        cases hhw : hasValue w with
        | false => exact no_value now hhw
        | true =>
          exfalso
          have no_del : ¬ ∃ v, (k, v) ∈ (between hash olds news).dels := by
            rintro ⟨v, hv⟩
            rcases ((s2 v).mp hv).2.2 with ⟨hn, _⟩ | ⟨w', hw', hf, _⟩
            · rw [hw] at hn; cases hn
            · rw [hw] at hw'; injection hw' with hw'; subst hw'; rw [hhw] at hf; cases hf
          rcases c6 k hk with h | ⟨h1, h2, h3⟩
          · exact no_del h
          · cases hv : olds.lookup k with
            | none => exact h1 ⟨w, (s1 w).mpr ⟨hw, hhw, .inl hv⟩⟩
            | some v =>
              have kw := known_at kn k
              have pw := proper_at hash pn k
              have pv := proper_at hash po k
              rw [value_of_lookup hv] at pv nov
              rw [value_of_lookup hw] at kw pw
              cases he : eqU hash v w with
              | true => exact h3 ⟨w, s5 hd v w hv hw he⟩
              | false =>
                cases hhv : hasValue v with
                | false => exact h1 ⟨w, (s1 w).mpr ⟨hw, hhw, .inr ⟨v, hv, hhv, he⟩⟩⟩
                | true =>
                  cases hd : diffU hash v w with
                  | none => rw [(no_diffU hash v w pv pw now).mp hd] at he; cases he
                  | some u => exact h2 ⟨u, (s3 u).mpr ⟨v, w, hv, hhv, hw, hhw, hd⟩⟩

/-- What the theorem above cannot say: the plan deletes a property, the update leaves it and everything else as it was, and no one
complains. If anything else had changed they would. -/
theorem planned_delete_forgotten :
    checkDiff (fun _ => none) [("k", .num 1)] [("k", .num 1)] ⟨[], ["k"], []⟩ = [] ∧
    checkDiff (fun _ => none) [("k", .num 1), ("l", .num 1)] [("k", .num 1), ("l", .num 2)] ⟨[], ["k"], [("l", .num 2)]⟩ = [("k", '=')] := by
  decide

/-! ## The plan of a preview -/

/-- C173: the plan a preview makes of the inputs it sees lets through whatever they come to in the update of the same resource: every
unknown may become any value, or nothing. -/
theorem plan_allows_its_own_outcomes (olds seen news : List (String × EV)) (d : Option ODiff)
    (po : proper hash (.object olds) = true) (ps : proper hash (.object seen) = true) (pn : proper hash (.object news) = true)
    (oo : noOutputs (.object olds) = true) (os : noOutputs (.object seen) = true) (on : noOutputs (.object news) = true)
    (ko : Known (.object olds)) (hr : Resolves hash (.object seen) (.object news))
    (hd : mapDiff hash nothing olds seen = some d) : checkDiff hash olds news (newPlanDiff d) = [] := by
  have key : ∀ k, Resolves hash (valueAt seen k) (valueAt news k) := by cases hr with | object _ _ h => exact h
  -- the plan, key by key
  have plan : ∀ k,
      (∀ e, (k, e) ∈ (newPlanDiff d).adds ↔ seen.lookup k = some e ∧ hasValue e = true ∧ ¬ Present olds k) ∧
      (k ∈ (newPlanDiff d).dels ↔ Present olds k ∧ ¬ Present seen k) ∧
      (∀ e, (k, e) ∈ (newPlanDiff d).ups ↔ seen.lookup k = some e ∧ hasValue e = true ∧ ∃ v, olds.lookup k = some v ∧ hasValue v = true ∧
        deepEq hash v e ≠ some true) := by
    intro k
    have eq_iff : ∀ v e, olds.lookup k = some v → seen.lookup k = some e →
        (diff hash nothing v e = some none ↔ deepEq hash v e = some true) := by
      intro v e hv he
      have h1 := (proper_object hash po).2 k v (lookup_mem hv)
      have h2 := (proper_object hash ps).2 k e (lookup_mem he)
      simp only [noOutputs] at os
      have := no_diff_iff_equal hash v e nothing h1 h2 (noOutputsKvs_mem os k e (lookup_mem he))
      rw [show strip nothing v = v from strip_nothing v, show strip nothing e = e from strip_nothing e] at this
      exact this
    cases d with
    | some d =>
      obtain ⟨t1, t2, t3, _⟩ := diff_sorts hash nothing olds seen d po ps oo os hd k
      refine ⟨fun e => ?_, ?_, fun e => ?_⟩
      · rw [show (newPlanDiff (some d)).adds = d.adds from rfl, t1 e]
        simp
      · simp only [newPlanDiff, List.mem_map]
        constructor
        · rintro ⟨⟨k', v⟩, hm, rfl⟩
          obtain ⟨_, h1, h2, h3⟩ := (t2 v).mp hm
          exact ⟨⟨v, h1, h2⟩, h3⟩
        · rintro ⟨⟨v, h1, h2⟩, h3⟩
          exact ⟨(k, v), (t2 v).mpr ⟨rfl, h1, h2, h3⟩, rfl⟩
      · simp only [newPlanDiff, List.mem_map]
        constructor
        · rintro ⟨⟨k', vd⟩, hm, he⟩
          injection he with e1 e2
          subst e1
          obtain ⟨_, v, w, h1, h2, h3, h4, h5⟩ := (t3 vd).mp hm
          have e3 := newOf_diff hash h5
          simp only at e2
          rw [e3] at e2
          subst e2
          refine ⟨h3, h4, v, h1, h2, fun hq => ?_⟩
          rw [(eq_iff v w h1 h3).mpr hq] at h5
          cases h5
        · rintro ⟨h3, h4, v, h1, h2, hq⟩
          obtain ⟨r, hr⟩ := diff_works hash v e nothing ((proper_object hash po).2 k v (lookup_mem h1))
          cases r with
          | none => exact absurd ((eq_iff v e h1 h3).mp hr) hq
          | some vd => exact ⟨(k, vd), (t3 vd).mpr ⟨rfl, v, e, h1, h2, h3, h4, hr⟩, by simp only [newOf_diff hash hr]⟩
    | none =>
      -- nothing differs
      have heq : deepEq hash (.object olds) (.object seen) = some true := by
        have := no_diff_iff_equal hash (.object olds) (.object seen) nothing po ps os
        rw [show strip nothing (.object olds) = .object olds from strip_nothing _,
          show strip nothing (.object seen) = .object seen from strip_nothing _] at this
        rw [← this]
        unfold mapDiff at hd
        simp only [diff]
        cases hf : diffKvs hash nothing olds seen with
        | none => rw [hf] at hd; cases hd
        | some fs =>
          rw [hf] at hd
          simp only [Option.map_some, Option.some.injEq] at hd
          simp [hd]
      obtain ⟨q1, q2⟩ := (deepEq_object hash olds seen).mp heq
      have lo : ∀ v, olds.lookup k = some v → noOutputs v = true := by
        intro v hv
        have := noOutputs_at oo k
        rw [value_of_lookup hv] at this
        exact this
      refine ⟨fun e => ?_, ?_, fun e => ?_⟩
      · simp only [newPlanDiff, List.not_mem_nil, false_iff]
        rintro ⟨he, hh, hp⟩
        cases hv : olds.lookup k with
        | none => rw [q2 k e (lookup_mem he) hv] at hh; cases hh
        | some v =>
          have := q1 k v (lookup_mem hv)
          rw [he] at this
          simp only at this
          cases hhv : hasValue v with
          | true => exact hp ⟨v, hv, hhv⟩
          | false =>
            rw [no_value (lo v hv) hhv] at this
            rw [null_equal hash this] at hh
            cases hh
      · simp only [newPlanDiff, List.not_mem_nil, false_iff]
        rintro ⟨⟨v, hv, hh⟩, hp⟩
        have := q1 k v (lookup_mem hv)
        cases he : seen.lookup k with
        | none => rw [he] at this; simp only at this; rw [this] at hh; cases hh
        | some e =>
          rw [he] at this
          simp only at this
          cases hhe : hasValue e with
          | true => exact hp ⟨e, he, hhe⟩
          | false =>
            have oe := noOutputs_at os k
            rw [value_of_lookup he] at oe
            rw [no_value oe hhe] at this
            rw [equal_null hash this] at hh
            cases hh
      · simp only [newPlanDiff, List.not_mem_nil, false_iff]
        rintro ⟨he, hh, v, hv, hhv, hq⟩
        have := q1 k v (lookup_mem hv)
        rw [he] at this
        exact hq this
  have eq_key : ∀ k e y, seen.lookup k = some e → news.lookup k = some y → eqU hash e y = true := by
    intro k e y he hy
    have := key k
    rw [value_of_lookup he, value_of_lookup hy] at this
    exact eqU_of_resolves hash this ((proper_object hash ps).2 k e (lookup_mem he)) ((proper_object hash pn).2 k y (lookup_mem hy))
  -- a planned value that is not there was unknown
  have quiet : ∀ k e, seen.lookup k = some e → hasValue e = true → strays hash e (news.lookup k) = false := by
    intro k e he hh
    cases hy : news.lookup k with
    | some y => simp [strays, eq_key k e y he hy]
    | none =>
      have := key k
      rw [value_of_lookup he, value_of_none hy] at this
      cases this with
      | unknown e' _ => rfl
      | null => cases hh
  have adds_of : ∀ k e, seen.lookup k = some e → hasValue e = true → ¬ Present olds k → (newPlanDiff d).adds.lookup k = some e := by
    intro k e he hh hp
    have hm := ((plan k).1 e).mpr ⟨he, hh, hp⟩
    cases hl : (newPlanDiff d).adds.lookup k with
    | none => exact absurd (List.mem_map_of_mem (f := (·.1)) hm) (lookup_none_iff.mp hl)
    | some e' =>
      have := (((plan k).1 e').mp (lookup_mem hl)).1
      rw [he] at this
      exact this.symm
  have ups_of : ∀ k e v, seen.lookup k = some e → hasValue e = true → olds.lookup k = some v → hasValue v = true →
      deepEq hash v e ≠ some true → (newPlanDiff d).ups.lookup k = some e := by
    intro k e v he hh hv hhv hq
    have hm := ((plan k).2.2 e).mpr ⟨he, hh, v, hv, hhv, hq⟩
    cases hl : (newPlanDiff d).ups.lookup k with
    | none => exact absurd (List.mem_map_of_mem (f := (·.1)) hm) (lookup_none_iff.mp hl)
    | some e' =>
      have := (((plan k).2.2 e').mp (lookup_mem hl)).1
      rw [he] at this
      exact this.symm
  have old_known : ∀ k v, olds.lookup k = some v → Known v ∧ noOutputs v = true ∧ proper hash v = true := by
    intro k v hv
    have h1 := known_at ko k
    have h2 := noOutputs_at oo k
    have h3 := proper_at hash po k
    rw [value_of_lookup hv] at h1 h2 h3
    exact ⟨h1, h2, h3⟩
  have seen_of : ∀ k y, news.lookup k = some y → hasValue y = true → ∃ e, seen.lookup k = some e ∧ hasValue e = true := by
    intro k y hy hh
    have := key k
    rw [value_of_lookup hy] at this
    cases he : seen.lookup k with
    | none => rw [value_of_none he] at this; cases this; cases hh
    | some e =>
      rw [value_of_lookup he] at this
      refine ⟨e, rfl, ?_⟩
      have oe := noOutputs_at os k
      rw [value_of_lookup he] at oe
      cases hhe : hasValue e with
      | true => rfl
      | false => rw [no_value oe hhe] at this; cases this; cases hh
  have not_eq_computed : ∀ (v e : EV), Known v → isComputed e = true → deepEq hash v e ≠ some true := by
    intro v e kv hc
    cases e <;> first | (cases hc; done) | skip
    cases kv <;> simp [deepEq]
  rw [checkDiff_ok]
  refine ⟨?_, ?_, ?_, ?_, ?_, ?_⟩
  · intro k y hm
    obtain ⟨hy, hh, hold⟩ := ((between_sorts hash olds news po pn oo on k).1 y).mp hm
    obtain ⟨e, he, hhe⟩ := seen_of k y hy hh
    refine ⟨e, adds_of k e he hhe ?_, eq_key k e y he hy⟩
    rintro ⟨v, hv, hhv⟩
    rcases hold with hn | ⟨v', hv', hf, _⟩
    · rw [hv] at hn; cases hn
    · rw [hv] at hv'; injection hv' with hv'; subst hv'; rw [hhv] at hf; cases hf
  · intro k v hm
    obtain ⟨hv, hhv, hnew⟩ := ((between_sorts hash olds news po pn oo on k).2.1 v).mp hm
    have hn : valueAt news k = .null := by
      rcases hnew with ⟨hn, _⟩ | ⟨w, hw, hf, _⟩
      · exact value_of_none hn
      · have := noOutputs_at on k
        rw [value_of_lookup hw] at this ⊢
        exact no_value this hf
    have := key k
    rw [hn] at this
    cases he : seen.lookup k with
    | none =>
      left
      exact (plan k).2.1.mpr ⟨⟨v, hv, hhv⟩, by rintro ⟨e, he', _⟩; rw [he] at he'; cases he'⟩
    | some e =>
      rw [value_of_lookup he] at this
      cases this with
      | unknown e' _ =>
        right
        exact ⟨_, ups_of k _ v he rfl hv hhv (not_eq_computed v _ (old_known k v hv).1 rfl), rfl⟩
      | null =>
        left
        exact (plan k).2.1.mpr ⟨⟨v, hv, hhv⟩, by rintro ⟨e, he', hx⟩; rw [he] at he'; injection he' with he'; subst he'; cases hx⟩
  · intro k u hm
    obtain ⟨v, w, hv, hhv, hw, hhw, hu⟩ := ((between_sorts hash olds news po pn oo on k).2.2.1 u).mp hm
    obtain ⟨e, he, hhe⟩ := seen_of k w hw hhw
    left
    rw [newOf_diffU hash hu]
    refine ⟨e, ups_of k e v he hhe hv hhv (fun hq => ?_), eq_key k e w he hw⟩
    obtain ⟨kv, ov, pv⟩ := old_known k v hv
    have oe := noOutputs_at os k
    have pe := proper_at hash ps k
    have ow := noOutputs_at on k
    have pw := proper_at hash pn k
    have hk := key k
    rw [value_of_lookup he] at oe pe hk
    rw [value_of_lookup hw] at ow pw hk
    have hs := same_of_equal hash v e pv pe ov oe hq
    have := eqU_of_resolves hash (resolves_same hash hs kv w hk) pv pw
    rw [(no_diffU hash v w pv pw ow).mpr this] at hu
    cases hu
  · intro k e hm
    obtain ⟨he, hhe, _⟩ := ((plan k).1 e).mp hm
    exact .inr (.inr (quiet k e he hhe))
  · intro k e hm
    obtain ⟨he, hhe, v, hv, hhv, _⟩ := ((plan k).2.2 e).mp hm
    refine .inr ⟨?_, quiet k e he hhe⟩
    rintro ⟨y, hy⟩
    obtain ⟨_, _, hold⟩ := ((between_sorts hash olds news po pn oo on k).1 y).mp hy
    rcases hold with hn | ⟨v', hv', hf, _⟩
    · rw [hv] at hn; cases hn
    · rw [hv] at hv'; injection hv' with hv'; subst hv'; rw [hhv] at hf; cases hf
  · intro k hm
    obtain ⟨⟨v, hv, hhv⟩, hp⟩ := (plan k).2.1.mp hm
    left
    refine ⟨v, ((between_sorts hash olds news po pn oo on k).2.1 v).mpr ⟨hv, hhv, ?_⟩⟩
    have kv := (old_known k v hv).1
    have hn : valueAt seen k = .null := by
      cases he : seen.lookup k with
      | none => exact value_of_none he
      | some e =>
        have oe := noOutputs_at os k
        rw [value_of_lookup he] at oe ⊢
        cases hhe : hasValue e with
        | true => exact absurd ⟨e, he, hhe⟩ hp
        | false => exact no_value oe hhe
    have hk := key k
    rw [hn] at hk
    cases hw : news.lookup k with
    | none => exact .inl ⟨rfl, by cases kv <;> rfl⟩
    | some w =>
      rw [value_of_lookup hw] at hk
      cases hk
      exact .inr ⟨.null, rfl, rfl, by cases kv <;> first | rfl | (cases hhv)⟩

end Pulumi.Plan
