import Verif.Props.Changes
import Verif.Paths.IgnoreTheorems
/-!
# Keys that are ignored, and a provider that cannot tell
-/
namespace Pulumi.Props
open Pulumi.Engine (EV Blob RefId)
open Pulumi.Paths (Text Key Path Kind Changes PropertyDiff DiffResult IState Ignored processIgnoreChanges copyMember copyGet srcOf parse pathText
  get step member IsPath Kept)

variable (hash : Blob → Option String)

/-! ## Keys that are ignored -/

/-- A path through objects alone, one of whose keys is ignored, and on from there -/
def Through (ign : String → Bool) (q : Path) : Prop :=
  ∃ (ns : List String) (n : String) (rest : Path), q = ns.map (fun m => Key.name m.toList) ++ .name n.toList :: rest ∧ ign n = true

theorem through_name {ign : String → Bool} {k : String} {q : Path} (h : Through ign (.name k.toList :: q)) : ign k = true ∨ Through ign q := by
  obtain ⟨ns, n, rest, h1, h2⟩ := h
  cases ns with
  | nil =>
    simp only [List.map_nil, List.nil_append, List.cons.injEq, Key.name.injEq] at h1
    rw [String.toList_inj.mp h1.1]; exact .inl h2
  | cons m ns =>
    simp only [List.map_cons, List.cons_append, List.cons.injEq] at h1
    exact .inr ⟨ns, n, rest, h1.2, h2⟩

theorem through_idx {ign : String → Bool} {i : Int} {q : Path} (h : Through ign (.idx i :: q)) : False := by
  obtain ⟨ns, n, rest, h1, h2⟩ := h
  cases ns with
  | nil => simp at h1
  | cons m ns => simp at h1

theorem changes_not_through : ∀ (v w : EV) (ign : String → Bool) (d : VDiff), proper hash v = true → proper hash w = true →
    noOutputs v = true → noOutputs w = true → diff hash ign v w = some (some d) → ∀ q kd, (q, kd) ∈ changes d → ¬ Through ign q := by
  intro v
  have leaf : ∀ (v w : EV) (ign : String → Bool) (d : VDiff), (∀ xs ys, v = .array xs → w = .array ys → False) →
      (∀ a b, v = .object a → w = .object b → False) → diff hash ign v w = some (some d) →
      ∀ q kd, (q, kd) ∈ changes d → ¬ Through ign q := by
    intro v w ign d h1 h2 h q kd hm
    rw [diff_leaf hash ign v w h1 h2] at h
    split at h
    · cases h
    · cases h
    · simp only [Option.some.injEq] at h
      rw [← h] at hm
      simp only [changes, List.mem_singleton, Prod.mk.injEq] at hm
      rw [hm.1]
      rintro ⟨ns, n, rest, h1, _⟩
      cases ns <;> simp at h1
  induction v using EV.parts with
  | array xs ih =>
    intro w ign d hv hw ov ow h q kd hm
    cases w with
    | array ys =>
      obtain ⟨sames, ups, hl, _, rfl⟩ := diff_array_some hash h
      simp only [changes, List.mem_append] at hm
      rcases hm with (hm | hm) | hm
      · obtain ⟨i, d', q', h1, h2, rfl⟩ := (mem_changesIdx q kd ups).mp hm
        exact through_idx
      · obtain ⟨⟨i, y⟩, he, h1⟩ := List.mem_map.mp hm
        injection h1 with h1 h2
        subst h1 h2
        exact through_idx
      · obtain ⟨⟨i, y⟩, he, h1⟩ := List.mem_map.mp hm
        injection h1 with h1 h2
        subst h1 h2
        exact through_idx
    | _ => exact leaf _ _ ign d (by intro _ _ _ h; cases h) (by intro _ _ h; cases h) h q kd hm
  | object a ih =>
    intro w ign d hv hw ov ow h q kd hm
    cases w with
    | object b =>
      obtain ⟨od, hod, rfl⟩ := diff_object_some hash h
      have sorts := fun k => diff_sorts hash ign a b od hv hw ov ow hod k
      obtain ⟨hna, hpa⟩ := proper_object hash hv
      obtain ⟨hnb, hpb⟩ := proper_object hash hw
      simp only [noOutputs] at ov ow
      simp only [changes, List.mem_append] at hm
      have nil : ¬ Through ign [] := by rintro ⟨ns, n, rest, h1, _⟩; cases ns <;> simp at h1
      intro ht
      rcases hm with (hm | hm) | hm
      · obtain ⟨k, d', q', h1, h2, rfl⟩ := (mem_changesKey q kd od.ups).mp hm
        obtain ⟨hi, x, y, h3, _, h5, _, h6⟩ := ((sorts k).2.2.1 d').mp h1
        have hx := lookup_mem h3
        have hy := lookup_mem h5
        rcases through_name ht with ht | ht
        · rw [hi] at ht; cases ht
        · exact ih k x hx y ign d' (hpa k x hx) (hpb k y hy) (noOutputsKvs_mem ov k x hx) (noOutputsKvs_mem ow k y hy) h6 q' kd h2 ht
      · obtain ⟨⟨k, y⟩, he, h1⟩ := List.mem_map.mp hm
        injection h1 with h1 h2
        subst h1 h2
        rcases through_name ht with ht | ht
        · rw [(((sorts k).1 y).mp he).1] at ht; cases ht
        · exact nil ht
      · obtain ⟨⟨k, y⟩, he, h1⟩ := List.mem_map.mp hm
        injection h1 with h1 h2
        subst h1 h2
        rcases through_name ht with ht | ht
        · rw [(((sorts k).2.1 y).mp he).1] at ht; cases ht
        · exact nil ht
    | _ => exact leaf _ _ ign d (by intro _ _ h; cases h) (by intro _ _ _ h; cases h) h q kd hm
  | _ =>
    intro w ign d _ _ _ _ h
    exact leaf _ w ign d (by intro _ _ h; cases h) (by intro _ _ h; cases h) h

/-- C169: what is at an ignored key of an object, or below it, is not in a diff. -/
theorem ignored_keys_stay_out_partial (ign : String → Bool) (a b : List (String × EV)) (r : Option ODiff)
    (ha : proper hash (.object a) = true) (hb : proper hash (.object b) = true) (oa : noOutputs (.object a) = true)
    (ob : noOutputs (.object b) = true) (pa : plainKeys (.object a) = true) (pb : plainKeys (.object b) = true)
    (h : mapDiff hash ign a b = some r) (t : Text) (p : PropertyDiff) (ht : (t, p) ∈ detailed r) :
    ∃ q, parse t = .ok q ∧ ¬ Through ign q := by
  cases r with
  | none => cases ht
  | some d =>
    have hs := changes_sound hash _ _ ign _ ha hb oa ob pa pb (diff_of_mapDiff hash h)
    rw [detailed_eq (.object a) (.object b)] at ht
    rcases (detail_texts [] (fun k hk => by cases hk) _ [] (fun qk hqk => (hs qk.1 qk.2 hqk).1)).1 t p ht with h1 | ⟨q, kd, h1, h2, h3⟩
    · cases h1
    · refine ⟨q, ?_, changes_not_through hash _ _ ign _ ha hb oa ob (diff_of_mapDiff hash h) q kd h1⟩
      rw [h2, List.nil_append]
      exact Paths.path_round_trip q (plain_printable (hs q kd h1).1)

/-- C169: a change of ignored keys alone is no change. -/
theorem only_ignored_is_same (ign : String → Bool) (a b : List (String × EV)) (ha : proper hash (.object a) = true)
    (hb : proper hash (.object b) = true) (ob : noOutputs (.object b) = true) :
    mapDiff hash ign a b = some none ↔ deepEq hash (strip ign (.object a)) (strip ign (.object b)) = some true := by
  rw [← no_diff_iff_equal hash _ _ ign ha hb ob]
  unfold mapDiff
  simp only [diff]
  cases diffKvs hash ign a b with
  | none => simp
  | some fs => cases hf : finish ign a b fs <;> simp [hf]

/-- In an array, or a secret, ignored keys are not ignored. -/
theorem ignored_keys_in_arrays : ∃ d, mapDiff (fun _ => some "") (fun k => decide (k = "etag")) [("xs", .array [.object [("etag", .num 1)]])]
    [("xs", .array [.object [("etag", .num 2)]])] = some (some d) ∧
    detailed (some d) = [("xs[0].etag".toList, { kind := .update, inputDiff := false })] := ⟨_, rfl, by decide⟩

/-! ## A provider that cannot tell -/

/-- a key put in its place -/
def insertKey (k : String) : List String → List String
  | [] => [k]
  | k' :: ks => if k < k' then k :: k' :: ks else k' :: insertKey k ks

/-- `Keys` (properties_diff.go:66-82); `sort.Slice` is an insertion sort -/
def ODiff.keys (d : ODiff) : List String :=
  (d.adds.map (·.1) ++ d.dels.map (·.1) ++ d.sames.map (·.1) ++ d.ups.map (·.1)).foldr insertKey []

theorem mem_insertKey {k x : String} : ∀ {ks : List String}, x ∈ insertKey k ks ↔ x = k ∨ x ∈ ks
  | [] => by simp [insertKey]
  | k' :: ks => by
    unfold insertKey
    split
    · simp
    · rw [List.mem_cons, mem_insertKey, List.mem_cons]
      constructor
      · rintro (h | h | h)
        · exact .inr (.inl h)
        · exact .inl h
        · exact .inr (.inr h)
      · rintro (h | h | h)
        · exact .inr (.inl h)
        · exact .inl h
        · exact .inr (.inr h)

theorem mem_sortKeys {x : String} : ∀ {ks : List String}, x ∈ ks.foldr insertKey [] ↔ x ∈ ks
  | [] => by simp
  | k :: ks => by rw [List.foldr_cons, mem_insertKey, mem_sortKeys, List.mem_cons]

/-- `Changed` (48-50), with `Added`, `Deleted` and `Updated` (30-45) -/
def ODiff.changed (d : ODiff) (k : String) : Bool :=
  (d.adds.lookup k).isSome || (d.dels.lookup k).isSome || (d.ups.lookup k).isSome

/-- `ChangedKeys` (85-95) -/
def changedKeys : Option ODiff → List String
  | none => []
  | some d => d.keys.filter d.changed

/-- `AnyChanges` (60-62) -/
def anyChanges : Option ODiff → Bool
  | none => false
  | some d => decide (d.adds.length + d.dels.length + d.ups.length > 0)

/-- The inputs `processIgnoreChanges` returns (step_generator.go:1456) -/
def inputsOf (s : IState) : List (String × EV) :=
  s.copy.filterMap (fun ks => (copyMember s ks.1).map (fun v => (String.ofList ks.1, v)))

/-- How it ends: with a panic; with the empty result, whose answer is "unknown", and no error (step_generator.go:1380-1382: what is
returned is the `err` of the call before); or with an answer -/
inductive Answer where
  | crashed
  | unsaid
  | told (d : DiffResult)

/-- `diffResource` (step_generator.go:1364-1393), after a call that did not fail (1370-1376). -/
def diffResource (d : DiffResult) (oldInputs newInputs : List (String × EV)) (ignore : List Text) : Answer :=
  if d.changes = .unknown then
    match processIgnoreChanges newInputs oldInputs ignore with
    | .crashed => .crashed
    | .refused _ => .unsaid
    | .done s =>
      match mapDiff hash nothing oldInputs (inputsOf s) with
      | none => .crashed
      | some r =>
        if anyChanges r then
          .told { d with changes := .some, changedKeys := (changedKeys r).map String.toList, detailed := some (detailed r) }
        else .told { d with changes := .none }
  else .told d

theorem anyChanges_iff {ign : String → Bool} {a b : List (String × EV)} {r : Option ODiff} (h : mapDiff hash ign a b = some r) :
    anyChanges r = true ↔ r ≠ none := by
  cases r with
  | none => simp [anyChanges]
  | some d =>
    obtain ⟨fs, _, hfin⟩ := mapDiff_some hash h
    obtain ⟨e1, e2, _, e4⟩ := finish_some hfin
    unfold finish at hfin
    simp only at hfin
    split at hfin
    · cases hfin
    · next hne =>
      rw [← e1, ← e2, ← e4] at hne
      simp only [anyChanges, decide_eq_true_eq, ne_eq, reduceCtorEq, not_false_eq_true, iff_true]
      cases h1 : d.adds with
      | cons x xs => simp; omega
      | nil =>
        cases h2 : d.dels with
        | cons x xs => simp; omega
        | nil =>
          cases h3 : d.ups with
          | cons x xs => simp
          | nil => exact absurd ⟨h1, h2, h3⟩ hne

/-- A property is not what it was: it is there and was not, or was there and is not, or it is not the same. -/
def KeyChanged (a b : List (String × EV)) (k : String) : Prop :=
  (Present a k ∧ ¬ Present b k) ∨ (¬ Present a k ∧ Present b k) ∨
    ∃ v w, a.lookup k = some v ∧ b.lookup k = some w ∧ deepEq hash v w = some false

theorem lookup_isSome {α : Type} (l : List (String × α)) (k : String) : (l.lookup k).isSome = true ↔ ∃ v, (k, v) ∈ l := by
  constructor
  · intro h
    obtain ⟨v, hv⟩ := Option.isSome_iff_exists.mp h
    exact ⟨v, lookup_mem hv⟩
  · rintro ⟨v, hv⟩
    cases hl : l.lookup k with
    | some _ => rfl
    | none => exact absurd (List.mem_map.mpr ⟨_, hv, rfl⟩) (lookup_none_iff.mp hl)

theorem mem_changedKeys (a b : List (String × EV)) (r : Option ODiff)
    (ha : proper hash (.object a) = true) (hb : proper hash (.object b) = true) (oa : noOutputs (.object a) = true)
    (ob : noOutputs (.object b) = true) (h : mapDiff hash nothing a b = some r) (k : String) :
    k ∈ changedKeys r ↔ KeyChanged hash a b k := by
  obtain ⟨hna, hpa⟩ := proper_object hash ha
  obtain ⟨hnb, hpb⟩ := proper_object hash hb
  have ova := oa
  have ovb := ob
  simp only [noOutputs] at ova ovb
  have gone : ∀ (m : List (String × EV)) (v : EV), noOutputsKvs m = true → m.lookup k = some v → ¬ Present m k → v = .null := by
    intro m v om hl hn
    cases hv : hasValue v with
    | false => exact no_value (noOutputsKvs_mem om k v (lookup_mem hl)) hv
    | true => exact absurd ⟨v, hl, hv⟩ hn
  cases r with
  | none =>
    simp only [changedKeys, List.not_mem_nil, false_iff]
    have heq := (only_ignored_is_same hash nothing a b ha hb ob).mp h
    rw [strip_nothing, strip_nothing] at heq
    obtain ⟨he1, he2⟩ := (deepEq_object hash a b).mp heq
    rintro (⟨⟨v, hl, hv⟩, hn⟩ | ⟨hn, ⟨w, hl, hw⟩⟩ | ⟨v, w, h1, h2, h3⟩)
    · have := he1 k v (lookup_mem hl)
      cases hb' : b.lookup k with
      | none => rw [hb'] at this; rw [hv] at this; cases this
      | some w =>
        rw [hb', gone b w ovb hb' hn] at this
        rw [equal_null hash this] at hv; cases hv
    · cases ha' : a.lookup k with
      | none => rw [he2 k w (lookup_mem hl) ha'] at hw; cases hw
      | some v =>
        have := he1 k v (lookup_mem ha')
        rw [hl, gone a v ova ha' hn] at this
        rw [null_equal hash this] at hw; cases hw
    · have := he1 k v (lookup_mem h1)
      rw [h2] at this
      simp only at this
      rw [h3] at this; cases this
  | some d =>
    obtain ⟨s1, s2, s3, _⟩ := diff_sorts hash nothing a b d ha hb oa ob h k
    have hc : k ∈ changedKeys (some d) ↔ (∃ v, (k, v) ∈ d.adds) ∨ (∃ v, (k, v) ∈ d.dels) ∨ ∃ v, (k, v) ∈ d.ups := by
      simp only [changedKeys, List.mem_filter, ODiff.keys, mem_sortKeys, List.mem_append, ODiff.changed, Bool.or_eq_true,
        lookup_isSome]
      constructor
      · rintro ⟨_, (h | h) | h⟩
        · exact .inl h
        · exact .inr (.inl h)
        · exact .inr (.inr h)
      · rintro (⟨v, h⟩ | ⟨v, h⟩ | ⟨v, h⟩)
        · exact ⟨.inl (.inl (.inl (List.mem_map.mpr ⟨_, h, rfl⟩))), .inl (.inl ⟨v, h⟩)⟩
        · exact ⟨.inl (.inl (.inr (List.mem_map.mpr ⟨_, h, rfl⟩))), .inl (.inr ⟨v, h⟩)⟩
        · exact ⟨.inr (List.mem_map.mpr ⟨_, h, rfl⟩), .inr ⟨v, h⟩⟩
    rw [hc]
    constructor
    · rintro (⟨w, hm⟩ | ⟨v, hm⟩ | ⟨vd, hm⟩)
      · obtain ⟨_, h1, h2, h3⟩ := (s1 w).mp hm
        exact .inr (.inl ⟨h3, w, h1, h2⟩)
      · obtain ⟨_, h1, h2, h3⟩ := (s2 v).mp hm
        exact .inl ⟨⟨v, h1, h2⟩, h3⟩
      · obtain ⟨_, v, w, h1, _, h2, _, h3⟩ := (s3 vd).mp hm
        refine .inr (.inr ⟨v, w, h1, h2, ?_⟩)
        have hiff := no_diff_iff_equal hash v w nothing (hpa k v (lookup_mem h1)) (hpb k w (lookup_mem h2)) (noOutputsKvs_mem ovb k w (lookup_mem h2))
        rw [h3, strip_nothing, strip_nothing] at hiff
        obtain ⟨e, he⟩ := comparison_works hash v w (hpa k v (lookup_mem h1))
        rw [he] at hiff ⊢
        cases e with
        | false => rfl
        | true => exact absurd (hiff.mpr rfl) (by simp)
    · have bothcase : ∀ v w, a.lookup k = some v → hasValue v = true → b.lookup k = some w → hasValue w = true → deepEq hash v w = some false →
          (∃ v, (k, v) ∈ d.adds) ∨ (∃ v, (k, v) ∈ d.dels) ∨ ∃ v, (k, v) ∈ d.ups := by
        intro v w h1 hv h2 hw h3
        obtain ⟨o, ho⟩ := diff_works hash v w nothing (hpa k v (lookup_mem h1))
        cases o with
        | none =>
          have := (no_diff_iff_equal hash v w nothing (hpa k v (lookup_mem h1)) (hpb k w (lookup_mem h2))
            (noOutputsKvs_mem ovb k w (lookup_mem h2))).mp ho
          rw [strip_nothing, strip_nothing, h3] at this; cases this
        | some vd => exact .inr (.inr ⟨vd, (s3 vd).mpr ⟨rfl, v, w, h1, hv, h2, hw, ho⟩⟩)
      rintro (⟨⟨v, hl, hv⟩, hn⟩ | ⟨hn, ⟨w, hl, hw⟩⟩ | ⟨v, w, h1, h2, h3⟩)
      · exact .inr (.inl ⟨v, (s2 v).mpr ⟨rfl, hl, hv, hn⟩⟩)
      · exact .inl ⟨w, (s1 w).mpr ⟨rfl, hl, hw, hn⟩⟩
      · cases hv : hasValue v with
        | true =>
          cases hw : hasValue w with
          | true => exact bothcase v w h1 hv h2 hw h3
          | false =>
            refine .inr (.inl ⟨v, (s2 v).mpr ⟨rfl, h1, hv, ?_⟩⟩)
            rintro ⟨w', h4, h5⟩
            rw [h2] at h4; injection h4 with h4; rw [← h4, hw] at h5; cases h5
        | false =>
          have hna' : ¬ Present a k := by
            rintro ⟨w', h4, h5⟩
            rw [h1] at h4; injection h4 with h4; rw [← h4, hv] at h5; cases h5
          cases hw : hasValue w with
          | true => exact .inl ⟨w, (s1 w).mpr ⟨rfl, h2, hw, hna'⟩⟩
          | false =>
            rw [no_value (noOutputsKvs_mem ova k v (lookup_mem h1)) hv, no_value (noOutputsKvs_mem ovb k w (lookup_mem h2)) hw] at h3
            cases h3

theorem member_inputsOf (s : IState) (n : Text) : member n (inputsOf s) = copyMember s n := by
  have aux : ∀ l : List (Text × Paths.Src),
      (n ∈ l.map (·.1) → member n (l.filterMap (fun ks => (copyMember s ks.1).map (fun v => (String.ofList ks.1, v)))) = copyMember s n) ∧
      (n ∉ l.map (·.1) → member n (l.filterMap (fun ks => (copyMember s ks.1).map (fun v => (String.ofList ks.1, v)))) = none ∧ srcOf n l = none) := by
    intro l
    induction l with
    | nil => exact ⟨by simp, fun _ => ⟨rfl, rfl⟩⟩
    | cons e l ih =>
      obtain ⟨k, src⟩ := e
      simp only [List.filterMap_cons, List.map_cons, List.mem_cons, not_or]
      refine ⟨fun hn => ?_, fun hn => ?_⟩
      · cases hc : copyMember s k with
        | none =>
          simp only [Option.map_none]
          by_cases hm : n ∈ l.map (·.1)
          · exact ih.1 hm
          · rcases hn with hn | hn
            · rw [hn, hc, ← hn]; exact (ih.2 hm).1
            · exact absurd hn hm
        | some v =>
          simp only [Option.map_some, member, String.toList_ofList]
          by_cases hk : k = n
          · rw [if_pos hk, ← hk, hc]
          · rw [if_neg hk]
            rcases hn with hn | hn
            · exact absurd hn.symm hk
            · exact ih.1 hn
      · have hk : ¬ k = n := fun h => hn.1 h.symm
        refine ⟨?_, by unfold srcOf; rw [if_neg hk]; exact (ih.2 hn.2).2⟩
        cases hc : copyMember s k with
        | none => simp only [Option.map_none]; exact (ih.2 hn.2).1
        | some v =>
          simp only [Option.map_some, member, String.toList_ofList]
          rw [if_neg hk]; exact (ih.2 hn.2).1
  unfold inputsOf
  by_cases hm : n ∈ s.copy.map (·.1)
  · exact (aux s.copy).1 hm
  · obtain ⟨h1, h2⟩ := (aux s.copy).2 hm
    rw [h1]
    unfold copyMember
    rw [h2]

theorem get_inputsOf (s : IState) (q : Path) (hq : q ≠ []) : get q (.object (inputsOf s)) = copyGet s q := by
  match q with
  | [] => exact absurd rfl hq
  | .idx _ :: _ => rfl
  | .name k :: ks =>
    show (member k (inputsOf s)).bind (get ks) = _
    rw [member_inputsOf]; rfl

/-- C171: an answer a provider gives is kept. -/
theorem answers_are_kept (d : DiffResult) (old new : List (String × EV)) (ignore : List Text) (h : d.changes ≠ .unknown) :
    diffResource hash d old new ignore = .told d := by
  unfold diffResource; rw [if_neg h]

/-- C171: where a provider cannot tell, there are changes if the inputs are not what they were, and they are those that are not. -/
theorem unknown_is_decided_partial (d d' : DiffResult) (old new : List (String × EV)) (ignore : List Text) (s : IState)
    (hd : d.changes = .unknown) (hs : processIgnoreChanges new old ignore = .done s)
    (ho : proper hash (.object old) = true) (hn : proper hash (.object (inputsOf s)) = true) (oo : noOutputs (.object old) = true)
    (on : noOutputs (.object (inputsOf s)) = true) (h : diffResource hash d old new ignore = .told d') :
    (d'.changes = .none ∧ deepEq hash (.object old) (.object (inputsOf s)) = some true ∧ d' = { d with changes := .none }) ∨
    (d'.changes = .some ∧ deepEq hash (.object old) (.object (inputsOf s)) = some false ∧
      d'.replaceKeys = d.replaceKeys ∧ d'.stableKeys = d.stableKeys ∧ d'.deleteBeforeReplace = d.deleteBeforeReplace ∧
      ∀ k : String, k.toList ∈ d'.changedKeys ↔ KeyChanged hash old (inputsOf s) k) := by
  unfold diffResource at h
  rw [if_pos hd, hs] at h
  simp only at h
  split at h
  · cases h
  · next r hr =>
    have hany := anyChanges_iff hash hr
    have hsame := only_ignored_is_same hash nothing old (inputsOf s) ho hn on
    rw [strip_nothing, strip_nothing, hr] at hsame
    split at h
    · next hc =>
      injection h with h
      right
      rw [← h]
      refine ⟨rfl, ?_, rfl, rfl, rfl, fun k => ?_⟩
      · obtain ⟨e, he⟩ := comparison_works hash (.object old) (.object (inputsOf s)) ho
        rw [he] at hsame ⊢
        cases e with
        | false => rfl
        | true => exact absurd (Option.some.inj (hsame.mpr rfl)) (hany.mp hc)
      · rw [← mem_changedKeys hash old (inputsOf s) r ho hn oo on hr k]
        simp only [List.mem_map]
        constructor
        · rintro ⟨k', h1, h2⟩
          rw [← String.toList_inj.mp h2]; exact h1
        · intro h1
          exact ⟨k, h1, rfl⟩
    · next hc =>
      injection h with h
      left
      rw [← h]
      refine ⟨rfl, hsame.mp ?_, rfl⟩
      cases r with
      | none => rfl
      | some d'' => exact absurd (hany.mpr (by simp)) hc

/-- C171: whatever a provider that cannot tell makes of it, what is ignored does not change. -/
theorem unknown_spares_ignored_partial (d d' : DiffResult) (old new : List (String × EV)) (ignore : List Text) (s : IState)
    (hd : d.changes = .unknown) (hs : processIgnoreChanges new old ignore = .done s)
    (ho : proper hash (.object old) = true) (hn : proper hash (.object (inputsOf s)) = true) (oo : noOutputs (.object old) = true)
    (on : noOutputs (.object (inputsOf s)) = true) (po : plainKeys (.object old) = true) (pn : plainKeys (.object (inputsOf s)) = true)
    (h : diffResource hash d old new ignore = .told d') (hsome : d'.changes = .some) (es : List (Text × PropertyDiff))
    (he : d'.detailed = some es) (t : Text) (p : PropertyDiff) (ht : (t, p) ∈ es) :
    ∃ q, parse t = .ok q ∧ ChangeAt hash q (.object old) (.object (inputsOf s)) p.kind ∧
      ∀ i, IsPath ignore i → (get i (.object old)).isSome → i <+: q → False := by
  unfold diffResource at h
  rw [if_pos hd, hs] at h
  simp only at h
  split at h
  · cases h
  · next r hr =>
    split at h
    · injection h with h
      rw [← h] at he
      simp only [Option.some.injEq] at he
      rw [← he] at ht
      obtain ⟨_, q, h1, h2⟩ := detailed_names_changes_partial hash nothing old (inputsOf s) r ho hn oo on po pn hr t p ht
      refine ⟨q, h1, h2, ?_⟩
      rintro i hi hsomei ⟨rest, rfl⟩
      have hk := Paths.ignored_kept new old ignore s hs i hi
      obtain ⟨u, hu⟩ := Option.isSome_iff_exists.mp hsomei
      unfold Kept at hk
      rw [hu] at hk
      have hine : i ≠ [] := by
        rintro rfl
        cases hk
      have hnew : get i (.object (inputsOf s)) = some u := by rw [get_inputsOf s i hine]; exact hk
      have app : ∀ (i rest : Path) (v u : EV), get i v = some u → get (i ++ rest) v = get rest u := by
        intro i
        induction i with
        | nil => intro rest v u h; simp only [Paths.get, Option.some.injEq] at h; rw [List.nil_append, h]
        | cons key i ih =>
          intro rest v u h
          simp only [Paths.get, List.cons_append] at h ⊢
          cases hst : step v key with
          | none => rw [hst] at h; cases h
          | some v' => rw [hst] at h; exact ih rest v' u h
      have e1 := app i rest _ u hu
      have e2 := app i rest _ u hnew
      have pr : ∀ (q : Path) (v u : EV), proper hash v = true → get q v = some u → proper hash u = true := by
        intro q
        induction q with
        | nil => intro v u hv h; simp only [Paths.get, Option.some.injEq] at h; rw [← h]; exact hv
        | cons key q ih =>
          intro v u hv h
          simp only [Paths.get] at h
          cases hst : step v key with
          | none => rw [hst] at h; cases h
          | some v' =>
            rw [hst] at h
            refine ih v' u ?_ h
            cases key with
            | idx j =>
              cases v <;> simp only [step] at hst <;> first | cases hst | skip
              next xs =>
              split at hst
              · simp only [proper] at hv
                exact properList_mem hash hv v' (List.mem_of_getElem? hst)
              · cases hst
            | name n =>
              cases v <;> simp only [step] at hst <;> first | cases hst | skip
              next kvs =>
              obtain ⟨k, rfl⟩ : ∃ k : String, k.toList = n := ⟨String.ofList n, String.toList_ofList⟩
              rw [member_lookup] at hst
              exact (proper_object hash hv).2 k v' (lookup_mem hst)
      cases hkd : p.kind <;> rw [hkd] at h2 <;> simp only [ChangeAt, Absent, e1, e2] at h2
      · obtain ⟨h3, y, h4, h5⟩ := h2
        rcases h3 with h3 | h3
        · rw [h3] at h4; cases h4
        · rw [h3] at h4; injection h4 with h4
          rw [h5 h4.symm] at h3; cases h3
      · obtain ⟨⟨y, h4, h5⟩, h3⟩ := h2
        rcases h3 with h3 | h3
        · rw [h3] at h4; cases h4
        · rw [h3] at h4; injection h4 with h4
          rw [h5 h4.symm] at h3; cases h3
      · obtain ⟨x, y, h3, h4, h5⟩ := h2
        rw [h3] at h4; injection h4 with h4
        subst h4
        rw [equal_refl hash x (pr (i ++ rest) _ x ho (e1.trans h3))] at h5
        cases h5
    · injection h with h
      rw [← h] at hsome; cases hsome

/-- A path that cannot be ignored ends in the empty answer, which the engine calls an unrecognized diff state. -/
theorem refused_is_unsaid (d : DiffResult) (hd : d.changes = .unknown) :
    diffResource hash d [("zones", .array [.str "a", .str "b"])] [("zones", .array [.str "a"])] ["zones[1]".toList] = .unsaid := by
  unfold diffResource
  rw [if_pos hd, Paths.shorter_array_refused]

end Pulumi.Props
