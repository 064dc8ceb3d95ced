import Verif.Dynamic.Lemmas

/-! # Lemmas: data that is read with `keep_unknowns` and written again -/

namespace Pulumi.Dynamic

open Pulumi.Wire (PV W Env setKey UserKey isNone isRpcSecret ser des Plain dropNonesKvs)

mutual
/-- What plain data is read as, unknowns kept. -/
def val : W → PV
  | .null => .none
  | .bool b => .bool b
  | .num n => .num n
  | .str s => Wire.desStr false true s
  | .list xs => .list (valList xs)
  | .struct kvs => .dict (valKvs kvs)
def valList : List W → List PV
  | [] => []
  | x :: xs => val x :: valList xs
def valKvs : Struct → Dict
  | [] => []
  | (k, x) :: kvs => if isNull x then valKvs kvs else (k, val x) :: valKvs kvs
end

mutual
/-- The serialised form of plain data. -/
def raw : W → PV
  | .null => .none
  | .bool b => .bool b
  | .num n => .num n
  | .str s => .str s
  | .list xs => .list (rawList xs)
  | .struct kvs => .dict (rawKvs kvs)
def rawList : List W → List PV
  | [] => []
  | x :: xs => raw x :: rawList xs
def rawKvs : Struct → Dict
  | [] => []
  | (k, x) :: kvs => if isNull x then rawKvs kvs else (k, raw x) :: rawKvs kvs
end

theorem isNone_val (w : W) : isNone (val w) = isNull w := by
  cases w with
  | str s =>
    simp only [val, Wire.desStr]
    split <;> rfl
  | _ => rfl

theorem isNone_raw (w : W) : isNone (raw w) = isNull w := by cases w <;> rfl

theorem valKvs_keys (kvs : Struct) : (valKvs kvs).map (·.1) = (rawKvs kvs).map (·.1) := by
  induction kvs with
  | nil => rfl
  | cons kv kvs ih =>
    obtain ⟨k, x⟩ := kv
    simp only [valKvs, rawKvs]
    split <;> simp [ih]

theorem rawKvs_sublist (kvs : Struct) : ((rawKvs kvs).map (·.1)).Sublist (kvs.map (·.1)) := by
  induction kvs with
  | nil => exact .slnil
  | cons kv kvs ih =>
    obtain ⟨k, x⟩ := kv
    simp only [rawKvs]
    split
    · exact ih.cons _
    · exact ih.cons_cons _

theorem val_not_secret {w : W} (h : PlainW w) : isRpcSecret (val w) = false := by
  cases h with
  | null => rfl
  | bool b => rfl
  | num n => rfl
  | str s =>
    simp only [val, Wire.desStr]
    split <;> rfl
  | list _ => rfl
  | @struct kvs hn hu hp =>
    simp only [val, isRpcSecret]
    have : (valKvs kvs).lookup Wire.sigKey = none := by
      apply Wire.lookup_none
      rw [valKvs_keys]
      intro hm
      have := (rawKvs_sublist kvs).subset hm
      obtain ⟨kv, hkv, e⟩ := List.mem_map.1 this
      exact (hu kv hkv).1 e
    rw [this]

theorem valList_any {xs : List W} (h : ∀ x ∈ xs, PlainW x) : (valList xs).any isRpcSecret = false := by
  induction xs with
  | nil => rfl
  | cons x xs ih =>
    simp [valList, val_not_secret (h x (List.mem_cons_self ..)), ih (fun y hy => h y (List.mem_cons_of_mem _ hy))]

theorem valKvs_any {kvs : Struct} (h : ∀ kv ∈ kvs, PlainW kv.2) :
    (valKvs kvs).any (fun kv => isRpcSecret kv.2) = false := by
  induction kvs with
  | nil => rfl
  | cons kv kvs ih =>
    obtain ⟨k, x⟩ := kv
    have h2 := ih (fun y hy => h y (List.mem_cons_of_mem _ hy))
    simp only [valKvs]
    split
    · exact h2
    · simp only [List.any_cons, h2, Bool.or_false]
      exact val_not_secret (h (k, x) (List.mem_cons_self ..))

theorem desList_val {env : Env} {xs : List W} (ih : ∀ x ∈ xs, des env true x = .ok (val x)) :
    Wire.desList env true xs = .ok (valList xs) := by
  induction xs with
  | nil => rfl
  | cons x xs ihx =>
    rw [Wire.desList, ih x (List.mem_cons_self ..), ihx (fun y hy => ih y (List.mem_cons_of_mem _ hy))]
    rfl

theorem collect_val {env : Env} {kvs : Struct} (hu : ∀ kv ∈ kvs, UserKey kv.1)
    (ih : ∀ kv ∈ kvs, des env true kv.2 = .ok (val kv.2)) :
    Wire.collect false (Wire.desKvs env true kvs) = .ok (valKvs kvs) := by
  induction kvs with
  | nil => rfl
  | cons kv kvs ihx =>
    obtain ⟨k, x⟩ := kv
    have h1 := ih (k, x) (List.mem_cons_self ..)
    have h2 := ihx (fun y hy => hu y (List.mem_cons_of_mem _ hy)) (fun y hy => ih y (List.mem_cons_of_mem _ hy))
    have h3 := Wire.internal_skip (hu (k, x) (List.mem_cons_self ..))
    simp only at h1
    simp only [Wire.desKvs, Wire.collect, h3, Bool.false_eq_true, if_false, h1, valKvs, isNone_val]
    split
    · exact h2
    · rw [h2]; rfl

theorem desProps_val {env : Env} {kvs : Struct} (hu : ∀ kv ∈ kvs, UserKey kv.1)
    (ih : ∀ kv ∈ kvs, des env true kv.2 = .ok (val kv.2)) :
    Wire.deserializeProperties env true false kvs = .ok (.dict (valKvs kvs)) := by
  have hs : kvs.lookup Wire.sigKey = none := by
    apply Wire.lookup_none
    intro hm
    obtain ⟨kv, hkv, he⟩ := List.mem_map.1 hm
    exact (hu kv hkv).1 he
  simp only [Wire.deserializeProperties, Wire.desStruct, hs, collect_val hu ih]
  rfl

theorem des_val {env : Env} (hdry : env.dryRun = false) {w : W} (h : PlainW w) : des env true w = .ok (val w) := by
  induction h with
  | null => rfl
  | bool b => rfl
  | num n => rfl
  | str s => simp only [des, hdry, val]
  | list hp ih =>
    rw [des, desList_val ih]
    simp only [Except.map, Wire.bubbleList, valList_any hp, val]
    rfl
  | @struct kvs hn hu hp ih =>
    have h1 := desProps_val hu ih
    rw [Wire.deserializeProperties] at h1
    rw [des, h1]
    simp only [Except.map, Wire.bubbleDict, valKvs_any hp, val]
    rfl

theorem serList_val {env : Env} {xs : List W} (h : ∀ x ∈ xs, ser env false .any (val x) = .ok (raw x, [])) :
    Wire.serList env false .any (valList xs) = .ok (rawList xs, []) := by
  induction xs with
  | nil => rfl
  | cons x xs ih =>
    rw [valList, Wire.serList, h x (List.mem_cons_self ..), ih (fun y hy => h y (List.mem_cons_of_mem _ hy))]
    rfl

theorem serKvs_val {env : Env} (hk : Wire.KeepsKeys env) {kvs : Struct} {acc : Dict}
    (hn : (acc.map (·.1) ++ kvs.map (·.1)).Nodup)
    (h : ∀ kv ∈ kvs, ser env false .any (val kv.2) = .ok (raw kv.2, [])) :
    Wire.serKvs env false .any acc (valKvs kvs) = .ok (acc ++ rawKvs kvs, []) := by
  induction kvs generalizing acc with
  | nil => simp [valKvs, rawKvs, Wire.serKvs]
  | cons kv kvs ih =>
    obtain ⟨k, x⟩ := kv
    have hrest := fun y hy => h y (List.mem_cons_of_mem (k, x) hy)
    simp only [valKvs, rawKvs]
    by_cases hx : isNull x = true
    · rw [if_pos hx, if_pos hx]
      refine ih ?_ hrest
      refine hn.sublist ?_
      simp only [List.map_cons]
      exact List.Sublist.append_left (List.sublist_cons_self _ _) _
    · rw [if_neg hx, if_neg hx]
      have hfresh : k ∉ acc.map (·.1) := by
        rw [List.nodup_append] at hn
        intro hm
        exact hn.2.2 k hm k (List.mem_cons_self ..) rfl
      have h1 := h (k, x) (List.mem_cons_self ..)
      simp only at h1
      have h2 := ih (acc := acc ++ [(k, raw x)]) (by simpa using hn) hrest
      simp only [Wire.serKvs, Wire.mapKey_any hk, Env.mapTy, h1]
      simp only [bind, Except.bind]
      rw [Wire.setKey_fresh hfresh, h2]
      simp [pure, Except.pure]

theorem ser_val {env : Env} (hk : Wire.KeepsKeys env) {w : W} (h : PlainW w) :
    ser env false .any (val w) = .ok (raw w, []) := by
  induction h with
  | null => rfl
  | bool b => rfl
  | num n => rfl
  | str s =>
    simp only [val, raw, Wire.desStr]
    by_cases hs : s = Wire.UNKNOWN
    · rw [if_pos hs, hs]; rfl
    · rw [if_neg hs]; rfl
  | list _ ih =>
    have h1 := serList_val ih
    simp only [val, ser, Wire.elemTy, bind, Except.bind, h1]; rfl
  | struct hn _ _ ih =>
    simp only [val, ser, serKvs_val hk (acc := []) (by simpa using hn) ih]; rfl

theorem toWireList_raw {xs : List W} (h : ∀ x ∈ xs, Wire.toWire (raw x) = some (dropNulls x)) :
    Wire.toWireList (rawList xs) = some (dropNullsList xs) := by
  induction xs with
  | nil => rfl
  | cons x xs ih =>
    simp only [rawList, Wire.toWireList, dropNullsList, h x (List.mem_cons_self ..),
      ih (fun y hy => h y (List.mem_cons_of_mem _ hy))]

theorem toWireKvs_raw {kvs : Struct} (h : ∀ kv ∈ kvs, Wire.toWire (raw kv.2) = some (dropNulls kv.2)) :
    Wire.toWireKvs (rawKvs kvs) = some (dropNullsKvs kvs) := by
  induction kvs with
  | nil => rfl
  | cons kv kvs ih =>
    obtain ⟨k, x⟩ := kv
    have h1 := h (k, x) (List.mem_cons_self ..)
    have h2 := ih (fun y hy => h y (List.mem_cons_of_mem _ hy))
    simp only [rawKvs, dropNullsKvs]
    split
    · exact h2
    · simp only at h1
      simp only [Wire.toWireKvs, h1, h2]

theorem toWire_raw (w : W) : Wire.toWire (raw w) = some (dropNulls w) := by
  induction w using Wire.W.ind with
  | null => rfl
  | bool b => rfl
  | num n => rfl
  | str s => rfl
  | list xs ih => simp only [raw, Wire.toWire, toWireList_raw ih, dropNulls, Option.map_some]
  | struct kvs ih => simp only [raw, Wire.toWire, toWireKvs_raw ih, dropNulls, Option.map_some]

/-- Writing what was read. -/
theorem serProps_val {env : Env} (hk : Wire.KeepsKeys env) {kvs : Struct} {acc : Wire.Props}
    (hn : (acc.fields.map (·.1) ++ kvs.map (·.1)).Nodup) (hp : ∀ kv ∈ kvs, PlainW kv.2) :
    ∃ P, Wire.serProps env none false acc (valKvs kvs) = .ok P ∧ P.fields = acc.fields ++ dropNullsKvs kvs := by
  induction kvs generalizing acc with
  | nil => exact ⟨acc, rfl, by simp [dropNullsKvs]⟩
  | cons kv kvs ih =>
    obtain ⟨k, x⟩ := kv
    have hrest := fun y hy => hp y (List.mem_cons_of_mem (k, x) hy)
    have hx0 := hp (k, x) (List.mem_cons_self ..)
    simp only at hx0
    simp only [valKvs, dropNullsKvs]
    by_cases hx : isNull x = true
    · rw [if_pos hx, if_pos hx]
      refine ih ?_ hrest
      refine hn.sublist ?_
      simp only [List.map_cons]
      exact List.Sublist.append_left (List.sublist_cons_self _ _) _
    · rw [if_neg hx, if_neg hx]
      have hfresh : k ∉ acc.fields.map (·.1) := by
        rw [List.nodup_append] at hn
        intro hm
        exact hn.2.2 k hm k (List.mem_cons_self ..) rfl
      have hkey : env.topKey none k = k := hk k
      have hnn : isNone (raw x) = false := by rw [isNone_raw]; simpa using hx
      obtain ⟨P, h1, h2⟩ := ih (acc := { fields := setKey acc.fields k (dropNulls x), deps := setKey acc.deps k [] })
        (by rw [Wire.setKey_fresh hfresh]; simpa using hn) hrest
      refine ⟨P, ?_, ?_⟩
      · rw [Wire.serProps]
        simp only [Env.topTy, ser_val hk hx0, bind, Except.bind, hnn, toWire_raw, hkey]
        exact h1
      · rw [h2]
        simp only [Wire.setKey_fresh hfresh]
        simp

/-! ## Plain properties -/

/-- Plain properties that are written are read back, without the `None` entries. -/
theorem writeProps_says (env : Env) {o : Dict} (h : Plain (.dict o)) :
    ∃ s, writeProps env o = .ok s ∧ Says s (dropNonesKvs o) := by
  cases h with
  | dict hn hu hp =>
    obtain ⟨P, h1, _⟩ := Wire.plain_properties_round_trip (env := plugin env) (env' := env) (plugin_keeps env) hn hu hp
      false false false
    refine ⟨P.fields, by simp only [writeProps, h1], ?_⟩
    intro env' keep ki
    obtain ⟨P', h1', h2'⟩ := Wire.plain_properties_round_trip (env := plugin env) (env' := env') (plugin_keeps env)
      hn hu hp false keep ki
    rw [h1] at h1'
    cases h1'
    exact h2'

theorem plain_setKey {o : Dict} (h : Plain (.dict o)) {c : String} (hc : c ≠ Wire.UNKNOWN) :
    Plain (.dict (setKey o providerKey (.str c))) := by
  cases h with
  | dict hn hu hp =>
    refine .dict (setKey_nodup hn _ _) ?_ ?_
    · intro kv hkv
      rcases Wire.setKey_mem hkv with h | h
      · rw [h]; exact userKey_provider
      · exact hu kv h
    · intro kv hkv
      rcases Wire.setKey_mem hkv with h | h
      · rw [h]; exact .str hc
      · exact hp kv h

theorem dropNonesKvs_setKey_self (o : Dict) (k : String) (c : String) :
    (dropNonesKvs (setKey o k (.str c))).lookup k = some (.str c) := by
  induction o with
  | nil => simp [setKey, dropNonesKvs, Wire.isNone, Wire.dropNones, List.lookup]
  | cons p o ih =>
    obtain ⟨k', v⟩ := p
    unfold setKey
    by_cases hk : k' = k
    · rw [if_pos hk]
      simp [dropNonesKvs, Wire.isNone, Wire.dropNones, List.lookup]
    · rw [if_neg hk]
      have hb : (k == k') = false := by simpa using fun e => hk e.symm
      simp only [dropNonesKvs]
      split
      · exact ih
      · simp only [List.lookup, hb]; exact ih

theorem dropNonesKvs_setKey_ne (o : Dict) {k k0 : String} (c : String) (h : k0 ≠ k) :
    (dropNonesKvs (setKey o k (.str c))).lookup k0 = (dropNonesKvs o).lookup k0 := by
  have hb : (k0 == k) = false := by simpa using h
  induction o with
  | nil => simp [setKey, dropNonesKvs, Wire.isNone, Wire.dropNones, List.lookup, hb]
  | cons p o ih =>
    obtain ⟨k', v⟩ := p
    unfold setKey
    by_cases hk : k' = k
    · rw [if_pos hk]
      subst hk
      simp only [dropNonesKvs]
      by_cases hv : isNone v = true
      · have hs : isNone (PV.str c) = false := rfl
        simp [hs, hv, List.lookup, hb]
      · have hs : isNone (PV.str c) = false := rfl
        simp [hs, hv, List.lookup, hb]
    · rw [if_neg hk]
      simp only [dropNonesKvs]
      split
      · exact ih
      · simp only [List.lookup]
        split
        · rfl
        · exact ih

theorem dropNonesKvs_sublist (o : Dict) : ((dropNonesKvs o).map (·.1)).Sublist (o.map (·.1)) := by
  induction o with
  | nil => exact .slnil
  | cons p o ih =>
    obtain ⟨k, v⟩ := p
    simp only [dropNonesKvs]
    split
    · exact ih.cons _
    · exact ih.cons_cons _

/-- Stamped plain properties are reported. -/
theorem write_reports (env : Env) {o : Dict} (h : Plain (.dict o)) {c : String} (hc : c ≠ Wire.UNKNOWN) :
    ∃ s, writeProps env (setKey o providerKey (.str c)) = .ok s ∧ Reports s o c := by
  obtain ⟨s, hs, hr⟩ := writeProps_says env (plain_setKey h hc)
  refine ⟨s, hs, _, hr, ?_, dropNonesKvs_setKey_self o _ c, fun k hk => dropNonesKvs_setKey_ne o c hk⟩
  cases h with
  | dict hn _ _ => exact (setKey_nodup hn _ _).sublist (dropNonesKvs_sublist _)

theorem drop_append (a b : Dict) : dropNonesKvs (a ++ b) = dropNonesKvs a ++ dropNonesKvs b := by
  induction a with
  | nil => rfl
  | cons q a ih =>
    obtain ⟨k, v⟩ := q
    simp only [List.cons_append, dropNonesKvs]
    split
    · exact ih
    · rw [ih]; rfl

theorem mem_dropList {x : PV} {xs : List PV} (h : x ∈ Wire.dropNonesList xs) : ∃ y ∈ xs, x = Wire.dropNones y := by
  induction xs with
  | nil => simp [Wire.dropNonesList] at h
  | cons y xs ih =>
    simp only [Wire.dropNonesList, List.mem_cons] at h
    rcases h with h | h
    · exact ⟨y, List.mem_cons_self .., h⟩
    · obtain ⟨z, hz, e⟩ := ih h
      exact ⟨z, List.mem_cons_of_mem _ hz, e⟩

theorem mem_dropKvs {q : String × PV} {kvs : Dict} (h : q ∈ dropNonesKvs kvs) :
    ∃ y, (q.1, y) ∈ kvs ∧ isNone y = false ∧ q.2 = Wire.dropNones y := by
  induction kvs with
  | nil => simp [dropNonesKvs] at h
  | cons kv kvs ih =>
    obtain ⟨k, y⟩ := kv
    simp only [dropNonesKvs] at h
    split at h
    · obtain ⟨z, hz, e⟩ := ih h
      exact ⟨z, List.mem_cons_of_mem _ hz, e⟩
    · rename_i hy
      rcases List.mem_cons.1 h with h | h
      · subst h
        exact ⟨y, List.mem_cons_self .., by simpa using hy, rfl⟩
      · obtain ⟨z, hz, e⟩ := ih h
        exact ⟨z, List.mem_cons_of_mem _ hz, e⟩

theorem plain_drop {v : PV} (h : Plain v) : Plain (Wire.dropNones v) ∧ Wire.NoNoneEntry (Wire.dropNones v) := by
  induction h with
  | none => exact ⟨.none, .none⟩
  | bool b => exact ⟨.bool b, .bool b⟩
  | num n => exact ⟨.num n, .num n⟩
  | str hs => exact ⟨.str hs, .str _⟩
  | list _ ih =>
    refine ⟨.list ?_, .list ?_⟩
    · intro x hx
      obtain ⟨y, hy, rfl⟩ := mem_dropList hx
      exact (ih y hy).1
    · intro x hx
      obtain ⟨y, hy, rfl⟩ := mem_dropList hx
      exact (ih y hy).2
  | @dict kvs hn hu _ ih =>
    refine ⟨.dict (hn.sublist (dropNonesKvs_sublist kvs)) ?_ ?_, .dict ?_ ?_⟩
    · intro q hq
      obtain ⟨y, hy, _⟩ := mem_dropKvs hq
      exact hu (q.1, y) hy
    · intro q hq
      obtain ⟨y, hy, _, e⟩ := mem_dropKvs hq
      rw [e]
      exact (ih _ hy).1
    · intro q hq
      obtain ⟨y, hy, hne, e⟩ := mem_dropKvs hq
      rw [e]
      intro h0
      have := Wire.isNone_dropNones (v := y)
      rw [h0, hne] at this
      cases this
    · intro q hq
      obtain ⟨y, hy, _, e⟩ := mem_dropKvs hq
      rw [e]
      exact (ih _ hy).2

theorem drop_idem {o : Dict} (h : Plain (.dict o)) : dropNonesKvs (dropNonesKvs o) = dropNonesKvs o := by
  have := Wire.dropNones_id (plain_drop h).2
  simpa [Wire.dropNones] using this

/-- What a program sends is read as what it declared. -/
theorem program_says {env : Env} (hk : ∀ k, env.translate k = k) {o : Dict} (h : Plain (.dict o)) (keep : Bool) :
    ∃ P, Wire.serializeProperties env none keep o = .ok P ∧ Says P.fields (dropNonesKvs o) := by
  cases h with
  | dict hn hu hp =>
    obtain ⟨P, h1, _⟩ := Wire.plain_properties_round_trip (env := env) (env' := env) hk hn hu hp keep false false
    refine ⟨P, h1, ?_⟩
    intro env' kp ki
    obtain ⟨P', h1', h2'⟩ := Wire.plain_properties_round_trip (env := env) (env' := env') hk hn hu hp keep kp ki
    rw [h1] at h1'
    cases h1'
    exact h2'

theorem says_read {env : Env} {s : Struct} {o : Dict} (h : Says s o) (keep : Bool) : readProps env keep s = .ok o := by
  unfold readProps
  rw [h (plugin env) keep false]

end Pulumi.Dynamic
