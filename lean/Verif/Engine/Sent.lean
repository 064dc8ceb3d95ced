import Verif.Engine.Spec
import Verif.Wire.RoundTrip
import Verif.Wire.Theorems
/-! # Lemmas: what the program sends is what the engine reads -/
namespace Pulumi.Engine

open Wire (Env PV ResId Ty W ser serList serKvs serFields toWire toWireList toWireKvs isNone setKey Mentions ContainsUnknown)

theorem sentinel_none {s : String} (h : s ∉ reserved) : sentinel s = none := by
  simp only [reserved, List.mem_cons, List.not_mem_nil, or_false, not_or] at h
  obtain ⟨h1, h2, h3, h4, h5, h6, h7⟩ := h
  simp [sentinel, unknownBool, unknownNumber, unknownString, unknownArray, unknownAsset, unknownArchive, unknownObject,
    h1, h2, h3, h4, h5, h6, h7]

theorem unmarshalStr_plain (o : Opts) {s : String} (h : s ∉ reserved) : unmarshalStr o s = .ok (some (.str s)) := by
  simp [unmarshalStr, sentinel_none h]

theorem unmarshalStr_unknown {o : Opts} (ho : Reads o) :
    unmarshalStr o Wire.UNKNOWN = .ok (some (.computed (.str ""))) := by
  have : sentinel Wire.UNKNOWN = some (.str "") := by rfl
  simp [unmarshalStr, this, ho.rejectUnknowns, ho.keepUnknowns]

theorem skips_false {o : Opts} (ho : Reads o) (k : String) (n : Bool) : skips o k n = false := by
  simp [skips, ho.skipNulls, ho.skipInternalKeys]

theorem unmarshalKvs_cons {o : Opts} (ho : Reads o) {k : String} {w : W} {ws : List (String × W)} {e : EV}
    {es : List (String × EV)} (h : unmarshal o w = .ok (some e)) (hs : unmarshalKvs o ws = .ok es) :
    unmarshalKvs o ((k, w) :: ws) = .ok ((k, e) :: es) := by
  simp only [unmarshalKvs, h, hs, bind, Except.bind, skips_false ho]
  rfl

theorem unmarshal_struct {o : Opts} {ws : List (String × W)} {es : List (String × EV)} (hs : unmarshalKvs o ws = .ok es) :
    unmarshal o (.struct ws) = recover o es := by
  simp only [unmarshal, hs, bind, Except.bind]

theorem recover_object {o : Opts} {es : List (String × EV)} (h : ∀ k ∈ es.map (·.1), k ≠ reservedKey) :
    recover o es = .ok (some (.object es)) := by
  have : es.lookup sigKey = none := Wire.lookup_none (fun hm => h _ hm rfl)
  simp only [recover, this]

/-- What is proved of every value. -/
def SentAs (env : Env) (o : Opts) (keep : Bool) (t : Ty) (v : PV) : Prop :=
  ∃ x d w e, ser env keep t v = .ok (x, d) ∧ toWire x = some w ∧ unmarshal o w = .ok (some e) ∧
    Means env (keep && env.outputValues) t v e ∧ isNone x = e.isNull

theorem sent_list {env : Env} {o : Opts} {keep : Bool} {t : Ty} {xs : List PV} (h : ∀ x ∈ xs, SentAs env o keep t x) :
    ∃ vs d ws es, serList env keep t xs = .ok (vs, d) ∧ toWireList vs = some ws ∧ unmarshalList o ws = .ok es ∧
      xs.length = es.length ∧ ∀ p ∈ xs.zip es, Means env (keep && env.outputValues) t p.1 p.2 := by
  induction xs with
  | nil => exact ⟨[], [], [], [], rfl, rfl, rfl, rfl, by simp⟩
  | cons x xs ih =>
    obtain ⟨v, d, w, e, h1, h2, h3, h4, _⟩ := h x (List.mem_cons_self ..)
    obtain ⟨vs, ds, ws, es, k1, k2, k3, k4, k5⟩ := ih fun y hy => h y (List.mem_cons_of_mem _ hy)
    refine ⟨v :: vs, d ++ ds, w :: ws, e :: es, ?_, ?_, ?_, ?_, ?_⟩
    · simp only [serList, h1, k1, bind, Except.bind, pure, Except.pure]
    · simp only [toWireList, h2, k2]
    · simp only [unmarshalList, h3, k3, bind, Except.bind, pure, Except.pure, Option.getD_some]
    · simp [k4]
    · intro p hp
      rw [List.zip_cons_cons, List.mem_cons] at hp
      rcases hp with rfl | hp
      · exact h4
      · exact k5 p hp

theorem sent_kvs {env : Env} {o : Opts} (ho : Reads o) {keep : Bool} {t : Ty} {kvs acc : List (String × PV)}
    (hn : (acc.map (·.1) ++ kvs.map fun kv => env.mapKey t kv.1).Nodup)
    (h : ∀ kv ∈ kvs, SentAs env o keep (env.mapTy t (env.mapKey t kv.1)) kv.2) :
    ∃ vs d ws es, serKvs env keep t acc kvs = .ok (acc ++ vs, d) ∧ toWireKvs vs = some ws ∧ unmarshalKvs o ws = .ok es ∧
      es.map (·.1) = kvs.map (fun kv => env.mapKey t kv.1) ∧
      ∀ p ∈ kvs.zip es, Means env (keep && env.outputValues) (env.mapTy t (env.mapKey t p.1.1)) p.1.2 p.2.2 := by
  induction kvs generalizing acc with
  | nil => exact ⟨[], [], [], [], by simp [serKvs], rfl, rfl, rfl, by simp⟩
  | cons kv kvs ih =>
    obtain ⟨k, x⟩ := kv
    obtain ⟨v, d, w, e, h1, h2, h3, h4, _⟩ := h (k, x) (List.mem_cons_self ..)
    have hfresh : env.mapKey t k ∉ acc.map (·.1) := by
      rw [List.nodup_append] at hn
      intro hm
      exact hn.2.2 _ hm _ (List.mem_cons_self ..) rfl
    obtain ⟨vs, ds, ws, es, k1, k2, k3, k4, k5⟩ := ih (acc := acc ++ [(env.mapKey t k, v)])
      (by simpa using hn) fun y hy => h y (List.mem_cons_of_mem _ hy)
    refine ⟨(env.mapKey t k, v) :: vs, d ++ ds, (env.mapKey t k, w) :: ws, (env.mapKey t k, e) :: es, ?_, ?_, ?_, ?_, ?_⟩
    · simp only at h1
      simp only [serKvs, h1, bind, Except.bind, Wire.setKey_fresh hfresh, k1, pure, Except.pure]
      simp
    · simp only [toWireKvs, h2, k2]
    · exact unmarshalKvs_cons ho h3 k3
    · simp [k4]
    · intro p hp
      rw [List.zip_cons_cons, List.mem_cons] at hp
      rcases hp with rfl | hp
      · exact h4
      · exact k5 p hp

theorem sent_fields {env : Env} {o : Opts} (ho : Reads o) {keep : Bool} {cls : String} {kvs acc : List (String × PV)}
    (hn : (acc.map (·.1) ++ kvs.map (·.1)).Nodup)
    (h : ∀ kv ∈ kvs, SentAs env o keep (env.propTy cls kv.1) kv.2) :
    ∃ vs d ws es, serFields env keep cls acc kvs = .ok (acc ++ vs, d) ∧ toWireKvs vs = some ws ∧
      unmarshalKvs o ws = .ok es ∧ es.map (·.1) = (kvs.filter fun kv => !isNone kv.2).map (·.1) ∧
      ∀ p ∈ (kvs.filter fun kv => !isNone kv.2).zip es,
        Means env (keep && env.outputValues) (env.propTy cls p.1.1) p.1.2 p.2.2 := by
  induction kvs generalizing acc with
  | nil => exact ⟨[], [], [], [], by simp [serFields], rfl, rfl, rfl, by simp⟩
  | cons kv kvs ih =>
    obtain ⟨k, x⟩ := kv
    have hfresh : k ∉ acc.map (·.1) := by
      rw [List.nodup_append] at hn
      intro hm
      exact hn.2.2 _ hm _ (List.mem_cons_self ..) rfl
    by_cases hx : isNone x = true
    · obtain ⟨vs, ds, ws, es, k1, k2, k3, k4, k5⟩ := ih (acc := acc)
        (hn.sublist (List.Sublist.append_left (List.sublist_cons_self ..) _)) fun y hy => h y (List.mem_cons_of_mem _ hy)
      refine ⟨vs, ds, ws, es, ?_, k2, k3, ?_, ?_⟩
      · simp only [serFields, hx, if_true, k1]
      · simp [hx, k4]
      · simpa [hx] using k5
    · obtain ⟨v, d, w, e, h1, h2, h3, h4, _⟩ := h (k, x) (List.mem_cons_self ..)
      obtain ⟨vs, ds, ws, es, k1, k2, k3, k4, k5⟩ := ih (acc := acc ++ [(k, v)])
        (by simpa using hn) fun y hy => h y (List.mem_cons_of_mem _ hy)
      refine ⟨(k, v) :: vs, d ++ ds, (k, w) :: ws, (k, e) :: es, ?_, ?_, ?_, ?_, ?_⟩
      · simp only at h1
        simp only [serFields, if_neg hx, h1, bind, Except.bind, Wire.setKey_fresh hfresh, k1, pure, Except.pure]
        simp
      · simp only [toWireKvs, h2, k2]
      · exact unmarshalKvs_cons ho h3 k3
      · simp [hx, k4]
      · have hf : (((k, x) :: kvs).filter fun kv => !isNone kv.2) = (k, x) :: kvs.filter fun kv => !isNone kv.2 := by
          simp [hx]
        rw [hf]
        intro p hp
        rw [List.zip_cons_cons, List.mem_cons] at hp
        rcases hp with rfl | hp
        · exact h4
        · exact k5 p hp

/-! ## Dependencies of output values -/

theorem nodup_setAdd {s : List String} (h : s.Nodup) (u : String) : (Deps.setAdd s u).Nodup := by
  unfold Deps.setAdd
  split
  · exact h
  · rename_i hu
    rw [List.nodup_append]
    refine ⟨h, by simp, ?_⟩
    intro a ha b hb
    simp only [List.mem_singleton] at hb
    subst hb
    rintro rfl
    exact hu ha

theorem nodup_addUrn {s : List String} (h : s.Nodup) (u : Option String) : (Deps.addUrn s u).Nodup := by
  cases u with
  | none => exact h
  | some u =>
    simp only [Deps.addUrn]
    split
    · exact h
    · exact nodup_setAdd h u

mutual
theorem nodup_addDependency : ∀ (r : Deps.Res) (st st' : Deps.Expand), st.urns.Nodup →
    Deps.addDependency st r none = some st' → st'.urns.Nodup
  | .mk i .localComponent u cs, st, st', h, e => by
    rw [Deps.addDependency] at e
    exact nodup_addDependencies cs st st' h e
  | .mk i .custom u cs, st, st', h, e => by
    simp only [Deps.addDependency, Deps.addLeaf, Option.some.injEq] at e
    subst e
    exact nodup_addUrn h _
  | .mk i .remoteComponent u cs, st, st', h, e => by
    simp only [Deps.addDependency, Deps.addLeaf, Option.some.injEq] at e
    subst e
    exact nodup_addUrn h _
theorem nodup_addDependencies : ∀ (rs : List Deps.Res) (st st' : Deps.Expand), st.urns.Nodup →
    Deps.addDependencies st rs none = some st' → st'.urns.Nodup
  | [], st, st', h, e => by
    simp only [Deps.addDependencies, Option.some.injEq] at e
    subst e
    exact h
  | r :: rs, st, st', h, e => by
    rw [Deps.addDependencies] at e
    cases hd : Deps.addDependency st r none with
    | none => rw [hd] at e; cases e
    | some s =>
      rw [hd] at e
      exact nodup_addDependencies rs s st' (nodup_addDependency r st s h hd) e
end

theorem nodup_expandUrns (env : Env) (rs : List ResId) : (Wire.expandUrns env rs).Nodup := by
  unfold Wire.expandUrns
  cases h : Deps.expandDependencies [] (rs.map env.treeOf) none with
  | none => exact List.nodup_nil
  | some e => exact nodup_addDependencies _ _ _ List.nodup_nil h

/-- The list that is sent. -/
def sortedUrns (env : Env) (rs pd : List ResId) : List String :=
  (Wire.expandUrns env (Wire.valueResources env rs pd)).mergeSort (fun a b => decide (a ≤ b))

theorem sortedUrns_sorted (env : Env) (rs pd : List ResId) : (sortedUrns env rs pd).Pairwise (· ≤ ·) := by
  have := List.pairwise_mergeSort (le := fun a b : String => decide (a ≤ b))
    (by intro a b c; simpa using fun h h' => String.le_trans h h')
    (by intro a b; simpa using String.le_total a b) (Wire.expandUrns env (Wire.valueResources env rs pd))
  simpa [sortedUrns] using this

theorem sortedUrns_nodup (env : Env) (rs pd : List ResId) : (sortedUrns env rs pd).Nodup :=
  (List.mergeSort_perm _ _).nodup_iff.2 (nodup_expandUrns env _)

theorem mem_sortedUrns {env : Env} {rs pd : List ResId} {u : String} {v : PV}
    (h : ∀ r, r ∈ rs ++ pd ↔ Mentions env v r) : u ∈ sortedUrns env rs pd ↔ DependsOn env v u := by
  unfold sortedUrns
  rw [List.mem_mergeSort, Wire.mem_expandUrns]
  have h' : ∀ r, (r ∈ rs ∨ r ∈ pd) ↔ Mentions env v r := by simpa using h
  constructor
  · rintro ⟨r, hr, f, hf⟩
    rw [Wire.mem_valueResources] at hr
    refine ⟨r, ?_, f, hf⟩
    rcases hr with hr | ⟨x, hx, hr⟩
    · exact .inl ((h' r).1 hr)
    · exact .inr ⟨x, (h' x).1 hx, hr⟩
  · rintro ⟨r, hr, f, hf⟩
    refine ⟨r, ?_, f, hf⟩
    rw [Wire.mem_valueResources]
    rcases hr with hr | ⟨x, hx, hr⟩
    · exact .inl ((h' r).2 hr)
    · exact .inr ⟨x, (h' x).2 hx, hr⟩

theorem unmarshalList_strs {o : Opts} {us : List String} (h : ∀ u ∈ us, u ∉ reserved) :
    unmarshalList o (us.map W.str) = .ok (us.map EV.str) := by
  induction us with
  | nil => rfl
  | cons u us ih =>
    simp only [List.map_cons, unmarshalList, unmarshal, unmarshalStr_plain o (h u (List.mem_cons_self ..)),
      ih (fun y hy => h y (List.mem_cons_of_mem _ hy)), bind, Except.bind, pure, Except.pure, Option.getD_some]

theorem depUrns_strs (us : List String) : depUrns (us.map EV.str) = .ok us := by
  induction us with
  | nil => rfl
  | cons u us ih => simp [depUrns, ih, Except.map]

end Pulumi.Engine
