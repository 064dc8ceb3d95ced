import Verif.Wire.Lemmas
import Verif.Deps.Theorems
/-! # Lemmas for C16, C21, C22: serialise, send, deserialise -/
namespace Pulumi.Wire

/-! ## Keys -/

theorem setKey_fresh {α : Type} {kvs : List (String × α)} {k : String} {v : α} (h : k ∉ kvs.map (·.1)) :
    setKey kvs k v = kvs ++ [(k, v)] := by
  induction kvs with
  | nil => rfl
  | cons p kvs ih =>
    obtain ⟨k', v'⟩ := p
    simp only [List.map_cons, List.mem_cons, not_or] at h
    simp only [setKey]
    rw [if_neg (fun hh => h.1 hh.symm), ih h.2]
    rfl

theorem lookup_none {α : Type} {kvs : List (String × α)} {k : String} (h : k ∉ kvs.map (·.1)) :
    kvs.lookup k = none := by
  induction kvs with
  | nil => rfl
  | cons p kvs ih =>
    obtain ⟨k', v'⟩ := p
    simp only [List.map_cons, List.mem_cons, not_or] at h
    simp only [List.lookup]
    have : (k == k') = false := by simpa using h.1
    rw [this]
    exact ih h.2

/-- Keys are sent unchanged. -/
def KeepsKeys (env : Env) : Prop := ∀ k, env.translate k = k

theorem mapKey_any {env : Env} (h : KeepsKeys env) (k : String) : env.mapKey .any k = k := h k

/-! ## Plain data -/

theorem serList_plain {env : Env} {keep : Bool} {xs : List PV}
    (h : ∀ x ∈ xs, ser env keep .any x = .ok (x, [])) : serList env keep .any xs = .ok (xs, []) := by
  induction xs with
  | nil => rfl
  | cons x xs ih =>
    rw [serList, h x (List.mem_cons_self ..), ih (fun y hy => h y (List.mem_cons_of_mem _ hy))]
    rfl

theorem serKvs_plain {env : Env} (hk : KeepsKeys env) {keep : Bool} {kvs acc : List (String × PV)}
    (hn : ((acc ++ kvs).map (·.1)).Nodup)
    (h : ∀ kv ∈ kvs, ser env keep .any kv.2 = .ok (kv.2, [])) :
    serKvs env keep .any acc kvs = .ok (acc ++ kvs, []) := by
  induction kvs generalizing acc with
  | nil => simp [serKvs]
  | cons kv kvs ih =>
    obtain ⟨k, x⟩ := kv
    have hfresh : k ∉ acc.map (·.1) := by
      simp only [List.map_append, List.map_cons] at hn
      rw [List.nodup_append] at hn
      intro hm
      exact hn.2.2 k hm k (List.mem_cons_self ..) rfl
    have h1 := h (k, x) (List.mem_cons_self ..)
    simp only at h1
    have h2 := ih (acc := acc ++ [(k, x)]) (by simpa using hn) (fun y hy => h y (List.mem_cons_of_mem _ hy))
    simp only [serKvs, mapKey_any hk, Env.mapTy, h1]
    simp only [bind, Except.bind]
    rw [setKey_fresh hfresh, h2]
    simp [pure, Except.pure]

theorem ser_plain {env : Env} (hk : KeepsKeys env) {v : PV} (h : Plain v) (keep : Bool) :
    ser env keep .any v = .ok (v, []) := by
  induction h with
  | none => rfl
  | bool b => rfl
  | num n => rfl
  | str _ => rfl
  | list _ ih =>
    have h1 := serList_plain ih
    simp only [ser, elemTy, bind, Except.bind, h1]; rfl
  | dict hn _ _ ih => simp only [ser, serKvs_plain hk (acc := []) (by simpa using hn) ih]; rfl

theorem hasUnknownList_false {xs : List PV} (h : ∀ x ∈ xs, hasUnknown x = false) : hasUnknownList xs = false := by
  induction xs with
  | nil => rfl
  | cons x xs ih =>
    simp [hasUnknownList, h x (List.mem_cons_self ..), ih (fun y hy => h y (List.mem_cons_of_mem _ hy))]

theorem hasUnknownKvs_false {xs : List (String × PV)} (h : ∀ x ∈ xs, hasUnknown x.2 = false) :
    hasUnknownKvs xs = false := by
  induction xs with
  | nil => rfl
  | cons x xs ih =>
    obtain ⟨k, x⟩ := x
    have h1 := h (k, x) (List.mem_cons_self ..)
    simp only at h1
    simp [hasUnknownKvs, h1, ih (fun y hy => h y (List.mem_cons_of_mem _ hy))]

theorem hasUnknown_plain {v : PV} (h : Plain v) : hasUnknown v = false := by
  induction h with
  | none => rfl
  | bool b => rfl
  | num n => rfl
  | str _ => rfl
  | list _ ih => simp only [hasUnknown]; exact hasUnknownList_false ih
  | dict _ _ _ ih => simp only [hasUnknown]; exact hasUnknownKvs_false ih

theorem toWireKvs_keys {kvs : List (String × PV)} {ws : List (String × W)} (h : toWireKvs kvs = some ws) :
    ws.map (·.1) = kvs.map (·.1) := by
  induction kvs generalizing ws with
  | nil => simp [toWireKvs] at h; simp [← h]
  | cons x xs ih =>
    obtain ⟨k, x⟩ := x
    simp only [toWireKvs] at h
    split at h
    · rename_i w ws' _ hws
      simp only [Option.some.injEq] at h
      rw [← h, List.map_cons, List.map_cons, ih hws]
    · cases h

theorem desStr_keep {dry keep : Bool} {s : String} (h : s ≠ UNKNOWN) : desStr dry keep s = .str s := by
  simp [desStr, h]

/-- Not a secret marker. -/
theorem not_secret_dropNones {v : PV} (h : Plain v) : isRpcSecret (dropNones v) = false := by
  cases h with
  | none => rfl
  | bool b => rfl
  | num n => rfl
  | str _ => rfl
  | list _ => rfl
  | @dict kvs hn hu hp =>
    simp only [dropNones, isRpcSecret]
    have : (dropNonesKvs kvs).lookup sigKey = none := by
      apply lookup_none
      clear hn hp
      induction kvs with
      | nil => simp [dropNonesKvs]
      | cons x xs ih =>
        obtain ⟨k, x⟩ := x
        simp only [dropNonesKvs]
        split
        · exact ih (fun y hy => hu y (List.mem_cons_of_mem _ hy))
        · simp only [List.map_cons, List.mem_cons, not_or]
          exact ⟨fun hh => (hu (k, x) (List.mem_cons_self ..)).1 hh.symm,
            ih (fun y hy => hu y (List.mem_cons_of_mem _ hy))⟩
    rw [this]

theorem isNone_dropNones {v : PV} : isNone (dropNones v) = isNone v := by
  cases v <;> rfl

theorem internal_skip {k : String} (h : UserKey k) :
    (!false && isInternal k && k != "__provider") = false := by
  cases hi : isInternal k with
  | false => simp
  | true => simp [(visible_iff k).1 h.2 hi]

theorem desList_plain {env : Env} {keep : Bool} {xs : List PV} {ws : List W}
    (ih : ∀ x ∈ xs, ∀ w, toWire x = some w → des env keep w = .ok (dropNones x))
    (h : toWireList xs = some ws) : desList env keep ws = .ok (dropNonesList xs) := by
  induction xs generalizing ws with
  | nil => simp [toWireList] at h; subst h; rfl
  | cons x xs ihx =>
    simp only [toWireList] at h
    split at h
    · rename_i w ws' hw hws
      simp only [Option.some.injEq] at h
      subst h
      rw [desList, ih x (List.mem_cons_self ..) w hw, ihx (fun y hy => ih y (List.mem_cons_of_mem _ hy)) hws]
      rfl
    · cases h

theorem collect_plain {env : Env} {keep : Bool} {ki : Bool} {kvs : List (String × PV)} {ws : List (String × W)}
    (hu : ∀ kv ∈ kvs, UserKey kv.1)
    (ih : ∀ kv ∈ kvs, ∀ w, toWire kv.2 = some w → des env keep w = .ok (dropNones kv.2))
    (h : toWireKvs kvs = some ws) : collect ki (desKvs env keep ws) = .ok (dropNonesKvs kvs) := by
  induction kvs generalizing ws with
  | nil => simp [toWireKvs] at h; subst h; rfl
  | cons x xs ihx =>
    obtain ⟨k, x⟩ := x
    simp only [toWireKvs] at h
    split at h
    · rename_i w ws' hw hws
      simp only [Option.some.injEq] at h
      subst h
      have h1 := ih (k, x) (List.mem_cons_self ..) w hw
      have h2 := ihx (fun y hy => hu y (List.mem_cons_of_mem _ hy)) (fun y hy => ih y (List.mem_cons_of_mem _ hy)) hws
      have h3 := internal_skip (hu (k, x) (List.mem_cons_self ..))
      have h3' : (!ki && isInternal k && k != "__provider") = false := by
        cases ki
        · exact h3
        · simp
      simp only [desKvs, collect, h3', Bool.false_eq_true, if_false, h1, dropNonesKvs, isNone_dropNones]
      split
      · exact h2
      · rw [h2]; rfl
    · cases h

theorem desStruct_plain {env : Env} {keep ki : Bool} {kvs : List (String × PV)} {ws : List (String × W)}
    (hu : ∀ kv ∈ kvs, UserKey kv.1)
    (ih : ∀ kv ∈ kvs, ∀ w, toWire kv.2 = some w → des env keep w = .ok (dropNones kv.2))
    (h : toWireKvs kvs = some ws) (p : Decoded) :
    desStruct env keep ki ws (desKvs env keep ws) p = .ok (.dict (dropNonesKvs kvs)) := by
  have hs : ws.lookup sigKey = none := by
    apply lookup_none
    rw [toWireKvs_keys h]
    intro hm
    simp only [List.mem_map] at hm
    obtain ⟨kv, hkv, he⟩ := hm
    exact (hu kv hkv).1 he
  simp only [desStruct, hs, collect_plain hu ih h]
  rfl

theorem dropNonesList_any {xs : List PV} (h : ∀ x ∈ xs, Plain x) : (dropNonesList xs).any isRpcSecret = false := by
  induction xs with
  | nil => rfl
  | cons x xs ih =>
    simp [dropNonesList, not_secret_dropNones (h x (List.mem_cons_self ..)),
      ih (fun y hy => h y (List.mem_cons_of_mem _ hy))]

theorem dropNonesKvs_any {xs : List (String × PV)} (h : ∀ x ∈ xs, Plain x.2) :
    (dropNonesKvs xs).any (fun kv => isRpcSecret kv.2) = false := by
  induction xs with
  | nil => rfl
  | cons x xs ih =>
    obtain ⟨k, x⟩ := x
    have h2 := ih (fun y hy => h y (List.mem_cons_of_mem _ hy))
    simp only [dropNonesKvs]
    split
    · exact h2
    · simp only [List.any_cons, h2, Bool.or_false]
      exact not_secret_dropNones (h (k, x) (List.mem_cons_self ..))

/-- Plain data comes back, without the `None` entries of its dicts. -/
theorem des_plain (env : Env) (keep : Bool) {v : PV} (h : Plain v) :
    ∀ w, toWire v = some w → des env keep w = .ok (dropNones v) := by
  induction h with
  | none => intro w hw; simp [toWire] at hw; subst hw; rfl
  | bool b => intro w hw; simp [toWire] at hw; subst hw; rfl
  | num n => intro w hw; simp [toWire] at hw; subst hw; rfl
  | str hs =>
    intro w hw
    simp [toWire] at hw
    subst hw
    simp [des, desStr_keep hs, dropNones]
  | @list xs hp ih =>
    intro w hw
    simp only [toWire, Option.map_eq_some_iff] at hw
    obtain ⟨ws, hws, rfl⟩ := hw
    rw [des, desList_plain ih hws]
    simp only [Except.map, bubbleList, dropNonesList_any hp, dropNones]
    rfl
  | @dict kvs hn hu hp ih =>
    intro w hw
    simp only [toWire, Option.map_eq_some_iff] at hw
    obtain ⟨ws, hws, rfl⟩ := hw
    rw [des, desStruct_plain hu ih hws]
    simp only [Except.map, bubbleDict, dropNonesKvs_any hp, dropNones]
    rfl

theorem toWire_plain {v : PV} (h : Plain v) : ∃ w, toWire v = some w := by
  apply toWire_of_legal
  induction h with
  | none => exact .none
  | bool b => exact .bool b
  | num n => exact .num n
  | str _ => exact .str _
  | list _ ih => exact .list ih
  | dict _ _ _ ih => exact .dict ih

theorem dropNonesList_id {xs : List PV} (h : ∀ x ∈ xs, dropNones x = x) : dropNonesList xs = xs := by
  induction xs with
  | nil => rfl
  | cons x xs ih =>
    simp [dropNonesList, h x (List.mem_cons_self ..), ih (fun y hy => h y (List.mem_cons_of_mem _ hy))]

theorem dropNonesKvs_id {xs : List (String × PV)} (hn : ∀ x ∈ xs, x.2 ≠ .none)
    (h : ∀ x ∈ xs, dropNones x.2 = x.2) : dropNonesKvs xs = xs := by
  induction xs with
  | nil => rfl
  | cons x xs ih =>
    obtain ⟨k, x⟩ := x
    have h1 := h (k, x) (List.mem_cons_self ..)
    have h2 := hn (k, x) (List.mem_cons_self ..)
    simp only at h1 h2
    have h3 : isNone x = false := by
      cases hx : isNone x with
      | false => rfl
      | true => exact absurd (isNone_eq hx) h2
    simp [dropNonesKvs, h3, h1, ih (fun y hy => hn y (List.mem_cons_of_mem _ hy))
      (fun y hy => h y (List.mem_cons_of_mem _ hy))]

/-- Data without `None` entries is unchanged. -/
theorem dropNones_id {v : PV} (h : NoNoneEntry v) : dropNones v = v := by
  induction h with
  | none => rfl
  | bool b => rfl
  | num n => rfl
  | str _ => rfl
  | list _ ih => simp only [dropNones, dropNonesList_id ih]
  | dict hne _ ih => simp only [dropNones, dropNonesKvs_id hne ih]

/-! ## serialize_properties on plain data -/

/-- The entries that are not `None`. -/
def nonNone (kvs : List (String × PV)) : List (String × PV) := kvs.filter fun kv => !isNone kv.2

theorem serProps_plain {env : Env} (hk : KeepsKeys env) (keep : Bool) {kvs pre : List (String × PV)}
    {acc : Props} (hpre : toWireKvs pre = some acc.fields) (hd : acc.deps.map (·.1) = acc.fields.map (·.1))
    (hn : ((pre ++ kvs).map (·.1)).Nodup) (h : ∀ kv ∈ kvs, Plain kv.2) :
    ∃ P, serProps env none keep acc kvs = .ok P ∧ toWireKvs (pre ++ nonNone kvs) = some P.fields := by
  induction kvs generalizing pre acc with
  | nil => exact ⟨acc, rfl, by simpa [nonNone] using hpre⟩
  | cons kv kvs ih =>
    obtain ⟨k, x⟩ := kv
    have hp := h (k, x) (List.mem_cons_self ..)
    simp only at hp
    have hser := ser_plain hk hp keep
    have hrest := fun y hy => h y (List.mem_cons_of_mem (k, x) hy)
    cases hx : isNone x with
    | true =>
      obtain ⟨P, h1, h2⟩ := ih (pre := pre) (acc := acc) hpre hd (by
        refine List.Nodup.sublist ?_ hn
        simp) hrest
      refine ⟨P, ?_, ?_⟩
      · simp only [serProps, Env.topTy, hser, bind, Except.bind, hx, if_true]
        exact h1
      · simpa [nonNone, hx] using h2
    | false =>
      obtain ⟨w, hw⟩ := toWire_plain hp
      have hfresh : k ∉ pre.map (·.1) := by
        simp only [List.map_append, List.map_cons] at hn
        rw [List.nodup_append] at hn
        intro hm
        exact hn.2.2 k hm k (List.mem_cons_self ..) rfl
      have hf1 : k ∉ acc.fields.map (·.1) := by rw [toWireKvs_keys hpre]; exact hfresh
      have hf2 : k ∉ acc.deps.map (·.1) := by rw [hd]; exact hf1
      have happ : ∀ (a : List (String × PV)) (b : List (String × W)), toWireKvs a = some b →
          toWireKvs (a ++ [(k, x)]) = some (b ++ [(k, w)]) := by
        intro a
        induction a with
        | nil => intro b hb; simp [toWireKvs] at hb; subst hb; simp [toWireKvs, hw]
        | cons y a iha =>
          obtain ⟨k', y⟩ := y
          intro b hb
          simp only [toWireKvs] at hb
          split at hb
          · rename_i w' ws' hw' hws'
            simp only [Option.some.injEq] at hb
            subst hb
            simp [toWireKvs, hw', iha _ hws']
          · cases hb
      obtain ⟨P, h1, h2⟩ := ih (pre := pre ++ [(k, x)])
        (acc := { fields := setKey acc.fields (env.topKey none k) w, deps := setKey acc.deps (env.topKey none k) [] })
        (by
          show toWireKvs _ = some (setKey acc.fields (env.translate k) w)
          rw [hk k, setKey_fresh hf1]
          exact happ _ _ hpre)
        (by
          show (setKey acc.deps (env.translate k) []).map (·.1) = (setKey acc.fields (env.translate k) w).map (·.1)
          rw [hk k, setKey_fresh hf1, setKey_fresh hf2, List.map_append, List.map_append, hd]
          rfl)
        (by simpa using hn) hrest
      refine ⟨P, ?_, ?_⟩
      · simp only [serProps, Env.topTy, hser, bind, Except.bind, hx, Bool.false_eq_true, if_false, hw]
        exact h1
      · simpa [nonNone, hx] using h2

theorem dropNonesKvs_nonNone (kvs : List (String × PV)) : dropNonesKvs (nonNone kvs) = dropNonesKvs kvs := by
  induction kvs with
  | nil => rfl
  | cons x xs ih =>
    obtain ⟨k, x⟩ := x
    cases hx : isNone x with
    | true => simp [nonNone, hx, dropNonesKvs]; exact ih
    | false => simp [nonNone, hx, dropNonesKvs]; exact ih

/-! ## Assets -/

theorem desKvs_lookup (env : Env) (keep : Bool) (kvs : List (String × W)) (k : String) :
    (desKvs env keep kvs).lookup k = (kvs.lookup k).map (des env keep) := by
  induction kvs with
  | nil => rfl
  | cons p kvs ih =>
    obtain ⟨k', w⟩ := p
    simp only [desKvs, List.lookup]
    cases k == k' with
    | true => rfl
    | false => exact ih

/-- Entry by entry: serialised, sent, deserialised to itself. -/
theorem assets_kvs {env : Env} (hk : KeepsKeys env) {kvs acc : List (String × PV)}
    (hn : ((acc ++ kvs).map (·.1)).Nodup)
    (ih : ∀ kv ∈ kvs, ∀ keep ty, ∃ w' w, ser env keep ty kv.2 = .ok (w', []) ∧ toWire w' = some w ∧
      ∀ env' kp, des env' kp w = .ok kv.2) :
    ∃ es ws, serKvs env false .any acc kvs = .ok (acc ++ es, []) ∧ toWireKvs es = some ws ∧
      ws.map (·.1) = kvs.map (·.1) ∧
      ∀ env' kp, desKvs env' kp ws = kvs.map fun kv => (kv.1, .ok kv.2) := by
  induction kvs generalizing acc with
  | nil => exact ⟨[], [], by simp [serKvs], rfl, rfl, fun _ _ => rfl⟩
  | cons kv kvs ihx =>
    obtain ⟨k, x⟩ := kv
    have hfresh : k ∉ acc.map (·.1) := by
      simp only [List.map_append, List.map_cons] at hn
      rw [List.nodup_append] at hn
      intro hm
      exact hn.2.2 k hm k (List.mem_cons_self ..) rfl
    obtain ⟨w', w, h1, h2, h3⟩ := ih (k, x) (List.mem_cons_self ..) false .any
    simp only at h1
    obtain ⟨es, ws, h4, h5, h6, h7⟩ := ihx (acc := acc ++ [(k, w')]) (by simpa using hn)
      (fun y hy => ih y (List.mem_cons_of_mem _ hy))
    refine ⟨(k, w') :: es, (k, w) :: ws, ?_, ?_, ?_, ?_⟩
    · simp only [serKvs, mapKey_any hk, Env.mapTy, h1]
      simp only [bind, Except.bind]
      rw [setKey_fresh hfresh, h4]
      simp [pure, Except.pure]
    · simp [toWireKvs, h2, h5]
    · simp [h6]
    · intro env' kp
      simp [desKvs, h3, h7]

theorem isAsset_shape {v : PV} (h : IsAsset v) : isAssetOrArchive v = true ∧ isNone v = false ∧ isRpcSecret v = false := by
  cases h <;> exact ⟨rfl, rfl, rfl⟩

theorem collect_assets {kvs : List (String × PV)} (hu : ∀ kv ∈ kvs, UserKey kv.1) (ha : ∀ kv ∈ kvs, IsAsset kv.2) :
    collect false (kvs.map fun kv => (kv.1, .ok kv.2)) = .ok kvs := by
  induction kvs with
  | nil => rfl
  | cons kv kvs ih =>
    obtain ⟨k, x⟩ := kv
    have h1 := internal_skip (hu (k, x) (List.mem_cons_self ..))
    have h2 := (isAsset_shape (ha (k, x) (List.mem_cons_self ..))).2.1
    simp only at h1 h2
    simp only [List.map_cons, collect, h1, h2, Bool.false_eq_true, if_false]
    rw [ih (fun y hy => hu y (List.mem_cons_of_mem _ hy)) (fun y hy => ha y (List.mem_cons_of_mem _ hy))]
    rfl

/-- The dict of assets of an archive deserialises to itself. -/
theorem des_assetKvs {env : Env} {kp : Bool} {kvs : List (String × PV)} {ws : List (String × W)}
    (hu : ∀ kv ∈ kvs, UserKey kv.1) (ha : ∀ kv ∈ kvs, IsAsset kv.2) (hk : ws.map (·.1) = kvs.map (·.1))
    (h : ∀ kp, desKvs env kp ws = kvs.map fun kv => (kv.1, .ok kv.2)) :
    des env kp (.struct ws) = .ok (.dict kvs) := by
  have hs : ws.lookup sigKey = none := by
    apply lookup_none
    rw [hk]
    intro hm
    simp only [List.mem_map] at hm
    obtain ⟨kv, hkv, he⟩ := hm
    exact (hu kv hkv).1 he
  have hany : kvs.any (fun kv => isRpcSecret kv.2) = false := by
    rw [List.any_eq_false]
    intro kv hkv
    simp [(isAsset_shape (ha kv hkv)).2.2]
  simp only [des, desStruct, hs, h, collect_assets hu ha, Except.map, bubbleDict, hany]
  rfl

theorem asset_roundtrip {env : Env} (hk : KeepsKeys env) {v : PV} (h : IsAsset v) :
    ∀ keep ty, ∃ w' w, ser env keep ty v = .ok (w', []) ∧ toWire w' = some w ∧
      ∀ env' kp, des env' kp w = .ok v := by
  induction h with
  | asset k s =>
    intro keep ty
    cases k <;>
    · refine ⟨_, _, rfl, rfl, ?_⟩
      intro env' kp
      simp [des, desStruct, desAsset, List.lookup, sigKey, assetSig, strField, Except.map, bubbleDict]
  | archive k s =>
    intro keep ty
    cases k <;>
    · refine ⟨_, _, rfl, rfl, ?_⟩
      intro env' kp
      simp [des, desStruct, desArchive, List.lookup, sigKey, assetSig, archiveSig, strField, Except.map, bubbleDict]
  | @assetArchive kvs hn hu ha ih =>
    intro keep ty
    obtain ⟨es, ws, h1, h2, h3, h4⟩ := assets_kvs hk (acc := []) (by simpa using hn) ih
    refine ⟨.dict [(sigKey, .str archiveSig), ("assets", .dict es)],
      .struct [(sigKey, .str archiveSig), ("assets", .struct ws)], ?_, ?_, ?_⟩
    · simp only [ser, h1]
      rfl
    · simp [toWire, toWireKvs, h2]
    · intro env' kp
      have h5 := des_assetKvs (env := env') (kp := false) hu ha h3 (fun kp => h4 env' kp)
      have hall : kvs.all (fun kv => isAssetOrArchive kv.2) = true := by
        rw [List.all_eq_true]
        intro kv hkv
        exact (isAsset_shape (ha kv hkv)).1
      have hl : ([(sigKey, W.str archiveSig), ("assets", W.struct ws)] : List (String × W)).lookup "assets" =
          some (.struct ws) := by simp [List.lookup, sigKey]
      have hl2 : ([(sigKey, W.str archiveSig), ("assets", W.struct ws)] : List (String × W)).lookup sigKey =
          some (.str archiveSig) := by simp [List.lookup]
      have hne : archiveSig ≠ assetSig := by decide
      rw [des, desStruct, hl2]
      simp only [if_neg hne, if_true]
      simp only [desArchive, hl, Decoded.get, desKvs_lookup, Option.map_some, h5, Except.bind, mkAssetArchive, hall,
        if_true, Except.map, bubbleDict]

/-! ## Output values -/

theorem mem_resAdd {s : List ResId} {r x : ResId} : x ∈ resAdd s r ↔ x ∈ s ∨ x = r := by
  unfold resAdd
  split
  · constructor
    · exact Or.inl
    · rintro (h | rfl)
      · exact h
      · assumption
  · simp

theorem mem_foldl_resAdd {b a : List ResId} {x : ResId} : x ∈ b.foldl resAdd a ↔ x ∈ a ∨ x ∈ b := by
  induction b generalizing a with
  | nil => simp
  | cons r b ih =>
    simp only [List.foldl_cons, ih, mem_resAdd, List.mem_cons]
    constructor
    · rintro ((h | h) | h)
      · exact .inl h
      · exact .inr (.inl h)
      · exact .inr (.inr h)
    · rintro (h | h | h)
      · exact .inl (.inl h)
      · exact .inl (.inr h)
      · exact .inr h

theorem mem_expandUrns {env : Env} {rs : List ResId} {u : String} :
    u ∈ expandUrns env rs ↔ ∃ r ∈ rs, ∃ x, Deps.Frontier (env.treeOf r) x ∧ Deps.HasUrn x u := by
  obtain ⟨e, h1, h2⟩ := Deps.expand_exact [] (rs.map env.treeOf)
  simp only [expandUrns, h1, h2, List.mem_map]
  constructor
  · rintro ⟨_, ⟨r, hr, rfl⟩, h⟩
    exact ⟨r, hr, h⟩
  · rintro ⟨r, hr, h⟩
    exact ⟨_, ⟨r, hr, rfl⟩, h⟩

theorem mem_valueResources {env : Env} {rs pd : List ResId} {r : ResId} :
    r ∈ valueResources env rs pd ↔
      (r ∈ rs ∨ r ∈ pd) ∨ ∃ x, (x ∈ rs ∨ x ∈ pd) ∧ r ∈ (env.info x).urn.resources := by
  simp only [valueResources, resUnion, mem_foldl_resAdd, List.mem_flatMap, serStrOut]

theorem toWireList_strs (us : List String) : toWireList (us.map PV.str) = some (us.map W.str) := by
  induction us with
  | nil => rfl
  | cons u us ih => simp [toWireList, toWire, ih]

theorem desList_strs {env : Env} {kp : Bool} {us : List String} (h : ∀ u ∈ us, u ≠ UNKNOWN) :
    desList env kp (us.map W.str) = .ok (us.map PV.str) := by
  induction us with
  | nil => rfl
  | cons u us ih =>
    simp only [List.map_cons, desList, des, desStr_keep (h u (List.mem_cons_self ..)),
      ih (fun y hy => h y (List.mem_cons_of_mem _ hy))]
    rfl

theorem depUrns_strs (us : List String) : depUrns (us.map PV.str) = some us := by
  induction us with
  | nil => rfl
  | cons u us ih => simp [depUrns, ih]

theorem any_secret_strs (us : List String) : (us.map PV.str).any isRpcSecret = false := by
  induction us with
  | nil => rfl
  | cons u us ih => simp [isRpcSecret] at ih ⊢

theorem des_strs {env : Env} {kp : Bool} {us : List String} (h : ∀ u ∈ us, u ≠ UNKNOWN) :
    des env kp (.list (us.map W.str)) = .ok (.list (us.map PV.str)) := by
  rw [des, desList_strs h]
  simp only [Except.map, bubbleList, any_secret_strs]
  rfl

/-- The wire form of an output value. -/
def outputWire (known secret : Bool) (w : W) (us : List String) : List (String × W) :=
  [(sigKey, .str outputSig)]
    ++ (if known then [("value", w)] else [])
    ++ (if secret then [("secret", .bool true)] else [])
    ++ (if us.isEmpty then [] else [("dependencies", .list (us.map .str))])

theorem toWire_outputValue {k s : Bool} {v : PV} {w : W} (h : toWire v = some w) (ds : List String) :
    toWire (outputValueDict k s v ds) =
      some (.struct (outputWire k s w (ds.mergeSort (fun a b => decide (a ≤ b))))) := by
  have he : (ds.mergeSort (fun a b => decide (a ≤ b))).isEmpty = ds.isEmpty := by
    cases ds with
    | nil => simp
    | cons d ds =>
      have := List.length_mergeSort (le := fun a b => decide (a ≤ b)) (d :: ds)
      cases hm : (d :: ds).mergeSort (fun a b => decide (a ≤ b)) with
      | nil => rw [hm] at this; simp at this
      | cons _ _ => rfl
  unfold outputValueDict outputWire
  rw [he]
  cases hd : ds.isEmpty <;> cases k <;> cases s <;>
    simp [toWire, toWireKvs, h, toWireList_strs]

theorem des_outputWire {env : Env} {kp k s : Bool} {w : W} {v : PV} {us : List String}
    (hv : des env false w = .ok v) (hus : ∀ u ∈ us, u ≠ UNKNOWN) :
    des env kp (.struct (outputWire k s w us)) =
      .ok (.output ((us.map ResId.dep).foldl resAdd []) k s (if k then v else .none)) := by
  have hl : (outputWire k s w us).lookup sigKey = some (.str outputSig) := by
    unfold outputWire; simp
  have h1 : outputSig ≠ assetSig := by decide
  have h2 : outputSig ≠ archiveSig := by decide
  have h3 : outputSig ≠ secretSig := by decide
  have h4 : outputSig ≠ resourceSig := by decide
  rw [des, desStruct, hl]
  simp only [if_neg h1, if_neg h2, if_neg h3, if_neg h4, if_true]
  have hk : (outputWire k s w us).lookup "value" = if k then some w else none := by
    unfold outputWire
    cases hd : us.isEmpty <;> cases k <;> cases s <;> simp [List.lookup, sigKey]
  have hs : (outputWire k s w us).lookup "secret" = if s then some (.bool true) else none := by
    unfold outputWire
    cases hd : us.isEmpty <;> cases k <;> cases s <;> simp [List.lookup, sigKey]
  have hdp : (outputWire k s w us).lookup "dependencies" =
      if us.isEmpty then none else some (.list (us.map .str)) := by
    unfold outputWire
    cases hd : us.isEmpty <;> cases k <;> cases s <;> simp [List.lookup, sigKey]
  simp only [desOutputValue, outValue, outSecret, outUrns, desKvs_lookup, hk, hs, hdp]
  cases hd : us.isEmpty with
  | true =>
    have : us = [] := by simpa using hd
    subst this
    cases k <;> cases s <;> simp [hv, des, bind, Except.bind, Except.map, pure, Except.pure, bubbleDict]
  | false =>
    have hds := des_strs (env := env) (kp := false) hus
    have hb : des env false (.bool true) = .ok (.bool true) := rfl
    cases k <;> cases s <;>
      simp [hv, hds, hb, depUrns_strs, bind, Except.bind, Except.map, pure, Except.pure, bubbleDict]

end Pulumi.Wire
