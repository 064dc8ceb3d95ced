import Verif.Engine.Sent
/-! # Lemmas: every value that a program may pass is read as what it means -/
namespace Pulumi.Engine

open Wire (Env PV ResId Ty W ser serList serKvs serFields toWire toWireList toWireKvs isNone setKey Mentions ContainsUnknown)

theorem unmarshal_sig (o : Opts) {s : String} (h : s ∉ reserved) : unmarshal o (.str s) = .ok (some (.str s)) :=
  unmarshalStr_plain o h

theorem unmarshalKvs_app {o : Opts} {a b : List (String × W)} {ea eb : List (String × EV)}
    (ha : unmarshalKvs o a = .ok ea) (hb : unmarshalKvs o b = .ok eb) : unmarshalKvs o (a ++ b) = .ok (ea ++ eb) := by
  induction a generalizing ea with
  | nil =>
    simp only [unmarshalKvs, Except.ok.injEq] at ha
    subst ha
    exact hb
  | cons p a ih =>
    obtain ⟨k, x⟩ := p
    simp only [unmarshalKvs, List.cons_append] at ha ⊢
    cases hx : unmarshal o x with
    | error e => rw [hx] at ha; cases ha
    | ok e =>
      rw [hx] at ha
      cases hr : unmarshalKvs o a with
      | error e => rw [hr] at ha; cases ha
      | ok es =>
        rw [hr] at ha
        simp only [bind, Except.bind, ih hr] at ha ⊢
        cases e with
        | none =>
          simp only [pure, Except.pure, Except.ok.injEq] at ha ⊢
          rw [ha]
        | some v =>
          simp only [pure, Except.pure] at ha ⊢
          split at ha <;> rename_i hs <;> simp only [Except.ok.injEq] at ha <;> subst ha
          · rw [if_pos hs]
          · rw [if_neg hs]; rfl

theorem unmarshalKvs_one {o : Opts} (ho : Reads o) {k : String} {w : W} {e : EV} (h : unmarshal o w = .ok (some e)) :
    unmarshalKvs o [(k, w)] = .ok [(k, e)] := unmarshalKvs_cons ho h rfl

theorem unmarshal_outputWire {o : Opts} (ho : Reads o) (hk : o.keepOutputValues = true) {k s : Bool} {w : W} {e : EV}
    {us : List String} (hw : k = true → unmarshal o w = .ok (some e)) (hus : ∀ u ∈ us, u ∉ reserved) :
    unmarshal o (.struct (Wire.outputWire k s w us)) = .ok (some (.output (if k then e else .null) k s us)) := by
  have h1 : unmarshalKvs o [(Wire.sigKey, .str Wire.outputSig)] = .ok [(sigKey, .str outputSig)] :=
    unmarshalKvs_one ho (unmarshal_sig o (by decide))
  have h2 : unmarshalKvs o (if k then [("value", w)] else []) = .ok (if k then [("value", e)] else []) := by
    cases k with
    | false => rfl
    | true => exact unmarshalKvs_one ho (hw rfl)
  have h3 : unmarshalKvs o (if s then [("secret", .bool true)] else []) = .ok (if s then [("secret", .bool true)] else []) := by
    cases s with
    | false => rfl
    | true => exact unmarshalKvs_one ho rfl
  have h4 : unmarshalKvs o (if us.isEmpty then [] else [("dependencies", .list (us.map .str))]) =
      .ok (if us.isEmpty then [] else [("dependencies", .array (us.map .str))]) := by
    cases hd : us.isEmpty with
    | true => rfl
    | false =>
      refine unmarshalKvs_one ho ?_
      simp only [unmarshal, unmarshalList_strs hus, Except.map]
  have := unmarshalKvs_app (unmarshalKvs_app (unmarshalKvs_app h1 h2) h3) h4
  unfold Wire.outputWire
  rw [unmarshal_struct this]
  have n1 : outputSig ≠ assetSig := by decide
  have n2 : outputSig ≠ archiveSig := by decide
  have n3 : outputSig ≠ secretSig := by decide
  have n4 : outputSig ≠ resourceSig := by decide
  simp only [recover, List.append_assoc, List.cons_append, List.nil_append, List.lookup_cons_self, if_neg n1, if_neg n2,
    if_neg n3, if_neg n4, if_true, recoverOutput, hk, outSecret, outDeps]
  cases hd : us.isEmpty with
  | true =>
    have : us = [] := by simpa using hd
    subst this
    cases k <;> cases s <;> simp [List.lookup, sigKey, bind, Except.bind, pure, Except.pure]
  | false =>
    cases k <;> cases s <;> simp [List.lookup, sigKey, bind, Except.bind, pure, Except.pure, depUrns_strs]

theorem unmarshal_secret {o : Opts} (ho : Reads o) {w : W} {e : EV} (hw : unmarshal o w = .ok (some e)) :
    unmarshal o (.struct [(Wire.sigKey, .str Wire.secretSig), ("value", w)]) = .ok (some (.secret e)) := by
  have h : unmarshalKvs o [(Wire.sigKey, .str Wire.secretSig), ("value", w)] =
      .ok [(sigKey, .str secretSig), ("value", e)] :=
    unmarshalKvs_cons ho (unmarshal_sig o (by decide)) (unmarshalKvs_one ho hw)
  rw [unmarshal_struct h]
  simp [recover, List.lookup, sigKey, secretSig, assetSig, archiveSig, secretValue, ho.keepSecrets]

theorem unmarshal_assetField {o : Opts} (ho : Reads o) {k s : String} (hs : s ∉ reserved) :
    unmarshalKvs o [(Wire.sigKey, .str Wire.assetSig), (k, .str s)] = .ok [(sigKey, .str assetSig), (k, .str s)] :=
  unmarshalKvs_cons ho (unmarshal_sig o (by decide)) (unmarshalKvs_one ho (unmarshal_sig o hs))

theorem unmarshal_archiveField {o : Opts} (ho : Reads o) {k s : String} (hs : s ∉ reserved) :
    unmarshalKvs o [(Wire.sigKey, .str Wire.archiveSig), (k, .str s)] = .ok [(sigKey, .str archiveSig), (k, .str s)] :=
  unmarshalKvs_cons ho (unmarshal_sig o (by decide)) (unmarshalKvs_one ho (unmarshal_sig o hs))

theorem sent_asset {env : Env} {o : Opts} (ho : Reads o) (keep : Bool) (t : Ty) (k : Wire.AssetKind) {s : String}
    (hs : s ∉ reserved) : SentAs env o keep t (.asset k s) := by
  cases k with
  | file =>
    refine ⟨_, [], .struct [(Wire.sigKey, .str Wire.assetSig), ("path", .str s)], _, rfl, rfl, ?_, .asset _ _, rfl⟩
    rw [unmarshal_struct (unmarshal_assetField ho hs)]
    simp [recover, List.lookup, sigKey, assetSig, ho.rejectAssets, deserializeAsset, strField, bind, Except.bind,
      pure, Except.pure, Except.map, assetOf]
  | text =>
    refine ⟨_, [], .struct [(Wire.sigKey, .str Wire.assetSig), ("text", .str s)], _, rfl, rfl, ?_, .asset _ _, rfl⟩
    rw [unmarshal_struct (unmarshal_assetField ho hs)]
    simp [recover, List.lookup, sigKey, assetSig, ho.rejectAssets, deserializeAsset, strField, bind, Except.bind,
      pure, Except.pure, Except.map, assetOf]
  | remote =>
    refine ⟨_, [], .struct [(Wire.sigKey, .str Wire.assetSig), ("uri", .str s)], _, rfl, rfl, ?_, .asset _ _, rfl⟩
    rw [unmarshal_struct (unmarshal_assetField ho hs)]
    simp [recover, List.lookup, sigKey, assetSig, ho.rejectAssets, deserializeAsset, strField, bind, Except.bind,
      pure, Except.pure, Except.map, assetOf]

theorem sent_archive {env : Env} {o : Opts} (ho : Reads o) (keep : Bool) (t : Ty) (k : Wire.ArchiveKind) {s : String}
    (hs : s ∉ reserved) : SentAs env o keep t (.archive k s) := by
  cases k with
  | file =>
    refine ⟨_, [], .struct [(Wire.sigKey, .str Wire.archiveSig), ("path", .str s)], _, rfl, rfl, ?_, .archive _ _, rfl⟩
    rw [unmarshal_struct (unmarshal_archiveField ho hs)]
    simp [recover, List.lookup, sigKey, assetSig, archiveSig, ho.rejectAssets, deserializeArchive, archiveAssets, strField,
      bind, Except.bind, pure, Except.pure, Except.map, archiveOf]
  | remote =>
    refine ⟨_, [], .struct [(Wire.sigKey, .str Wire.archiveSig), ("uri", .str s)], _, rfl, rfl, ?_, .archive _ _, rfl⟩
    rw [unmarshal_struct (unmarshal_archiveField ho hs)]
    simp [recover, List.lookup, sigKey, assetSig, archiveSig, ho.rejectAssets, deserializeArchive, archiveAssets, strField,
      bind, Except.bind, pure, Except.pure, Except.map, archiveOf]

theorem member_blob {env : Env} {ov : Bool} {t : Ty} {v : PV} {e : EV} (hm : IsMember v) (h : Means env ov t v e) :
    ∃ b, e = .blob b := by
  cases hm <;> cases h <;> exact ⟨_, rfl⟩

theorem archiveMembers_of {env : Env} {ov : Bool} {kvs : List (String × PV)} {es : List (String × EV)}
    (hl : es.map (·.1) = kvs.map fun kv => env.translate kv.1) (hm : ∀ kv ∈ kvs, IsMember kv.2)
    (h : ∀ p ∈ kvs.zip es, Means env ov .any p.1.2 p.2.2) :
    ∃ ms : List (String × Blob), archiveMembers es = .ok ms ∧ ms.map (·.1) = kvs.map (fun kv => env.translate kv.1) ∧
      ∀ p ∈ kvs.zip ms, Means env ov .any p.1.2 (.blob p.2.2) := by
  induction kvs generalizing es with
  | nil =>
    have : es = [] := by simpa using hl
    subst this
    exact ⟨[], rfl, rfl, by simp⟩
  | cons kv kvs ih =>
    cases es with
    | nil => simp at hl
    | cons p es =>
      obtain ⟨k', e⟩ := p
      simp only [List.map_cons, List.cons.injEq] at hl
      have h0 := h (kv, (k', e)) (by rw [List.zip_cons_cons]; exact List.mem_cons_self ..)
      obtain ⟨b, rfl⟩ := member_blob (hm kv (List.mem_cons_self ..)) h0
      obtain ⟨ms, a1, a2, a3⟩ := ih hl.2 (fun y hy => hm y (List.mem_cons_of_mem _ hy))
        (fun p hp => h p (by rw [List.zip_cons_cons]; exact List.mem_cons_of_mem _ hp))
      refine ⟨(k', b) :: ms, by simp [archiveMembers, a1, Except.map], by simp [hl.1, a2], ?_⟩
      intro p hp
      rw [List.zip_cons_cons, List.mem_cons] at hp
      rcases hp with rfl | hp
      · exact h0
      · exact a3 p hp

theorem unmarshal_assets {o : Opts} (ho : Reads o) {ws : List (String × W)} {es : List (String × EV)}
    {ms : List (String × Blob)} (hs : unmarshalKvs o ws = .ok es) (hk : ∀ k ∈ es.map (·.1), k ≠ reservedKey)
    (hm : archiveMembers es = .ok ms) :
    unmarshal o (.struct [(Wire.sigKey, .str Wire.archiveSig), ("assets", .struct ws)]) =
      .ok (some (.blob (.assets "" ms "" ""))) := by
  have h1 : unmarshal o (.struct ws) = .ok (some (.object es)) := by rw [unmarshal_struct hs, recover_object hk]
  have h : unmarshalKvs o [(Wire.sigKey, .str Wire.archiveSig), ("assets", .struct ws)] =
      .ok [(sigKey, .str archiveSig), ("assets", .object es)] :=
    unmarshalKvs_cons ho (unmarshal_sig o (by decide)) (unmarshalKvs_one ho h1)
  rw [unmarshal_struct h]
  simp [recover, List.lookup, sigKey, archiveSig, assetSig, ho.rejectAssets, deserializeArchive, archiveAssets, strField,
    hm, bind, Except.bind, pure, Except.pure, Except.map]

theorem unmarshal_refComponent {o : Opts} (ho : Reads o) {u : String} (hu : u ∉ reserved) :
    unmarshal o (.struct [(Wire.sigKey, .str Wire.resourceSig), ("urn", .str u)]) = .ok (some (.ref u .none "")) := by
  have h : unmarshalKvs o [(Wire.sigKey, .str Wire.resourceSig), ("urn", .str u)] =
      .ok [(sigKey, .str resourceSig), ("urn", .str u)] :=
    unmarshalKvs_cons ho (unmarshal_sig o (by decide)) (unmarshalKvs_one ho (unmarshal_sig o hu))
  rw [unmarshal_struct h]
  simp [recover, List.lookup, sigKey, archiveSig, assetSig, secretSig, resourceSig, recoverRef, refUrn, refId, refVersion,
    ho.keepResources, bind, Except.bind, pure, Except.pure]

theorem unmarshal_refCustom {o : Opts} (ho : Reads o) {u : String} (hu : u ∉ reserved) {w : W} {e : EV}
    (hw : unmarshal o w = .ok (some e)) :
    unmarshal o (.struct [(Wire.sigKey, .str Wire.resourceSig), ("urn", .str u), ("id", w)]) =
      (refId [("id", e)]).map fun i => some (.ref u i "") := by
  have h : unmarshalKvs o [(Wire.sigKey, .str Wire.resourceSig), ("urn", .str u), ("id", w)] =
      .ok [(sigKey, .str resourceSig), ("urn", .str u), ("id", e)] :=
    unmarshalKvs_cons ho (unmarshal_sig o (by decide)) (unmarshalKvs_cons ho (unmarshal_sig o hu) (unmarshalKvs_one ho hw))
  rw [unmarshal_struct h]
  have hid : refId [(sigKey, EV.str resourceSig), ("urn", .str u), ("id", e)] = refId [("id", e)] := by
    simp [refId, List.lookup, sigKey]
  simp [recover, List.lookup, sigKey, archiveSig, assetSig, secretSig, resourceSig, recoverRef, refUrn, refVersion,
    ho.keepResources, bind, Except.bind, pure, Except.pure]
  have hid' : refId [("4dabf18193072939515e22adb298388d", EV.str "5cf8f73096256a8f31e491e813e4eb8e"), ("urn", .str u), ("id", e)] =
      refId [("id", e)] := hid
  rw [hid']
  cases refId [("id", e)] <;> rfl

theorem sent_resource {env : Env} {o : Opts} (ho : Reads o) (keep : Bool) (t : Ty) {n : Nat} {u : String}
    (hr : env.resourceRefs = true) (hk : (env.res n).urn.known = true) (hs : (env.res n).urn.secret = false)
    (hu : (env.res n).urn.value = some u) (hru : u ∉ reserved)
    (hid : (env.res n).id.known = true →
      (env.res n).id.secret = false ∧ ∃ s, (env.res n).id.value = some s ∧ s ∉ reserved) :
    SentAs env o keep t (.resource (.decl n)) := by
  have hurn : (Wire.serStrOut env (env.res n).urn).1 = .str u := by simp [Wire.serStrOut, Wire.finishOutput, hk, hs, hu]
  cases hc : (env.res n).custom with
  | false =>
    refine ⟨.dict [(Wire.sigKey, .str Wire.resourceSig), ("urn", .str u)], (Wire.serStrOut env (env.res n).urn).2, _, _, ?_,
      rfl, unmarshal_refComponent ho hru, .component hc hu, rfl⟩
    simp [ser, Wire.serResource, hr, Env.info, hc, ← hurn]
  | true =>
    have hser : ser env keep t (.resource (.decl n)) =
        .ok (.dict [(Wire.sigKey, .str Wire.resourceSig), ("urn", .str u), ("id", (Wire.serStrOut env (env.res n).id).1)],
          (Wire.serStrOut env (env.res n).urn).2 ++ (Wire.serStrOut env (env.res n).id).2) := by
      simp [ser, Wire.serResource, hr, Env.info, hc, ← hurn]
    cases hik : (env.res n).id.known with
    | false =>
      have hi : (Wire.serStrOut env (env.res n).id).1 = .str Wire.UNKNOWN := by
        simp [Wire.serStrOut, Wire.finishOutput, hik]
      rw [hi] at hser
      refine ⟨_, _, .struct [(Wire.sigKey, .str Wire.resourceSig), ("urn", .str u), ("id", .str Wire.UNKNOWN)],
        .ref u .unknown "", hser, rfl, ?_, .pending hc hu (.inl hik), rfl⟩
      rw [unmarshal_refCustom ho hru (show unmarshal o (.str Wire.UNKNOWN) = _ from unmarshalStr_unknown ho)]
      rfl
    | true =>
      obtain ⟨h1, s, h2, h3⟩ := hid hik
      have hi : (Wire.serStrOut env (env.res n).id).1 = .str s := by
        simp [Wire.serStrOut, Wire.finishOutput, hik, h1, h2]
      rw [hi] at hser
      have hw := unmarshal_refCustom ho hru (unmarshal_sig o h3)
      by_cases hs0 : s = ""
      · subst hs0
        exact ⟨_, _, .struct [(Wire.sigKey, .str Wire.resourceSig), ("urn", .str u), ("id", .str "")],
          .ref u .unknown "", hser, rfl, hw, .pending hc hu (.inr h2), rfl⟩
      · refine ⟨_, _, .struct [(Wire.sigKey, .str Wire.resourceSig), ("urn", .str u), ("id", .str s)],
          .ref u (.known s) "", hser, rfl, ?_, .custom hc hu hik h2 hs0, rfl⟩
        rw [hw]
        simp [refId, List.lookup, hs0, Except.map]

theorem sent_output {env : Env} {o : Opts} (ho : Reads o) {keep : Bool}
    (hk : (keep && env.outputValues) = true → o.keepOutputValues = true) {t : Ty} {rs : List ResId} {known secret : Bool}
    {v : PV} (hu : known = true → ¬ ContainsUnknown v)
    (hd : ∀ u, DependsOn env (.output rs known secret v) u → u ∉ reserved)
    (ih : SentAs env o false t v) : SentAs env o keep t (.output rs known secret v) := by
  obtain ⟨x0, pd0, w0, e0, h1, h2, h3, h4, h5⟩ := ih
  -- what the Output's value is serialised to
  obtain ⟨x, pd, w, hx, hw, hknown⟩ : ∃ x pd w,
      (if Wire.hasUnknown v = true then Except.ok (PV.none, []) else ser env false t v) = .ok (x, pd) ∧
        toWire x = some w ∧ (known = true → x = x0 ∧ w = w0) := by
    cases hh : Wire.hasUnknown v with
    | true =>
      refine ⟨.none, [], .null, rfl, rfl, fun hkn => ?_⟩
      exact absurd ((Wire.hasUnknown_iff v).1 hh) (hu hkn)
    | false => exact ⟨x0, pd0, w0, by simpa using h1, h2, fun _ => ⟨rfl, rfl⟩⟩
  have hser : ser env keep t (.output rs known secret v) =
      if keep && env.outputValues then
        .ok (Wire.outputValueDict known secret x (Wire.expandUrns env (Wire.valueResources env rs pd)), rs ++ pd)
      else .ok (Wire.finishOutput env known secret x, rs ++ pd) := by
    rw [ser]
    cases hh : Wire.hasUnknown v with
    | true =>
      rw [hh, if_pos rfl] at hx
      cases hx
      simp only [if_true, bind, Except.bind]
      rfl
    | false =>
      rw [hh] at hx
      simp only [Bool.false_eq_true, if_false] at hx
      simp only [Bool.false_eq_true, if_false, hx, bind, Except.bind]
      rfl
  cases hov : (keep && env.outputValues) with
  | true =>
    rw [hov, if_pos rfl] at hser
    have hm := fun r => Wire.dependencies_exact hser r
    have hus : ∀ u ∈ sortedUrns env rs pd, u ∉ reserved := fun u hu' => hd u ((mem_sortedUrns hm).1 hu')
    refine ⟨_, _, _, _, hser, Wire.toWire_outputValue hw _,
      unmarshal_outputWire ho (hk hov) (e := e0) (fun hkn => ?_) hus, ?_, ?_⟩
    · obtain ⟨_, rfl⟩ := hknown hkn
      exact h3
    · rw [hov]
      refine .output ?_ ?_ (sortedUrns_sorted ..) (sortedUrns_nodup ..) (fun u => mem_sortedUrns hm)
      · intro hkn
        rw [if_pos hkn]
        simpa using h4
      · intro hkn
        simp [hkn]
    · simp [Wire.outputValueDict, isNone, EV.isNull]
  | false =>
    rw [hov] at hser
    simp only [Bool.false_eq_true, if_false] at hser
    cases hkn : known with
    | false =>
      refine ⟨.str Wire.UNKNOWN, rs ++ pd, .str Wire.UNKNOWN, _, ?_, rfl, unmarshalStr_unknown ho, ?_, rfl⟩
      · rw [← hkn, hser]
        simp [Wire.finishOutput, hkn]
      · rw [hov]; exact .unknownOutput
    | true =>
      obtain ⟨rfl, rfl⟩ := hknown hkn
      rw [hkn] at hser
      by_cases hsec : secret = true ∧ env.secrets = true
      · obtain ⟨rfl, hes⟩ := hsec
        refine ⟨Wire.secretDict x, rs ++ pd, .struct [(Wire.sigKey, .str Wire.secretSig), ("value", w)], .secret e0, ?_, ?_,
          unmarshal_secret ho h3, ?_, rfl⟩
        · rw [hser]; simp [Wire.finishOutput, hes]
        · simp [Wire.secretDict, toWire, toWireKvs, hw]
        · rw [hov]; exact .secretOutput hes (by simpa using h4)
      · refine ⟨x, rs ++ pd, w, e0, ?_, hw, h3, ?_, h5⟩
        · rw [hser]
          have : (secret && env.secrets) = false := by
            cases secret <;> cases he : env.secrets <;> simp_all
          simp [Wire.finishOutput, this]
        · rw [hov]
          refine .plainOutput (fun hs => ?_) (by simpa using h4)
          cases he : env.secrets with
          | false => rfl
          | true => exact absurd ⟨hs, he⟩ hsec

theorem sent {env : Env} {o : Opts} (ho : Reads o) {t : Ty} {v : PV} (h : Sendable env t v) :
    ∀ keep : Bool, ((keep && env.outputValues) = true → o.keepOutputValues = true) → SentAs env o keep t v := by
  induction h with
  | none => exact fun keep _ => ⟨.none, [], .null, .null, rfl, rfl, rfl, .none, rfl⟩
  | bool b => exact fun keep _ => ⟨.bool b, [], .bool b, .bool b, rfl, rfl, rfl, .bool b, rfl⟩
  | num n => exact fun keep _ => ⟨.num n, [], .num n, .num n, rfl, rfl, rfl, .num n, rfl⟩
  | @str t s hs => exact fun keep _ => ⟨.str s, [], .str s, .str s, rfl, rfl, unmarshal_sig o hs, .str s, rfl⟩
  | unknown => exact fun keep _ => ⟨_, [], _, _, rfl, rfl, unmarshalStr_unknown ho, .unknown, rfl⟩
  | @untypedList xs _ ih =>
    intro keep hk
    obtain ⟨vs, d, ws, es, a, b, c, l, m⟩ := sent_list fun x hx => ih x hx keep hk
    exact ⟨.list vs, d, .list ws, .array es, by simp only [ser, Wire.elemTy, bind, Except.bind, a]; rfl,
      by simp [toWire, b], by simp [unmarshal, c, Except.map], .untypedList l m, rfl⟩
  | @list t xs _ ih =>
    intro keep hk
    obtain ⟨vs, d, ws, es, a, b, c, l, m⟩ := sent_list fun x hx => ih x hx keep hk
    exact ⟨.list vs, d, .list ws, .array es, by simp only [ser, Wire.elemTy, bind, Except.bind, a]; rfl,
      by simp [toWire, b], by simp [unmarshal, c, Except.map], .list l m, rfl⟩
  | @dict t kvs hn hr _ ih =>
    intro keep hk
    obtain ⟨vs, d, ws, es, a, b, c, l, m⟩ := sent_kvs ho (acc := []) (by simpa using hn) fun kv hkv => ih kv hkv keep hk
    refine ⟨.dict vs, d, .struct ws, .object es, ?_, by simp [toWire, b], ?_, .dict l m, rfl⟩
    · simp only [ser, a, bind, Except.bind]; rfl
    · rw [unmarshal_struct c, recover_object]
      rw [l]
      intro k hkm
      obtain ⟨kv, hkv, rfl⟩ := List.mem_map.1 hkm
      exact hr kv hkv
  | @object t cls kvs hn hr _ ih =>
    intro keep hk
    obtain ⟨vs, d, ws, es, a, b, c, l, m⟩ := sent_fields ho (acc := []) (by simpa using hn) fun kv hkv => ih kv hkv keep hk
    refine ⟨.dict vs, d, .struct ws, .object es, ?_, by simp [toWire, b], ?_, .object l m, rfl⟩
    · simp only [ser, a, bind, Except.bind]; rfl
    · rw [unmarshal_struct c, recover_object]
      rw [l]
      intro k hkm
      obtain ⟨kv, hkv, rfl⟩ := List.mem_map.1 hkm
      exact hr kv (List.mem_filter.1 hkv).1
  | @awaitable t v _ ih =>
    intro keep hk
    obtain ⟨x, d, w, e, a, b, c, m, n⟩ := ih keep hk
    exact ⟨x, d, w, e, by rw [ser]; exact a, b, c, .awaitable m, n⟩
  | output _ hu hd ih => exact fun keep hk => sent_output ho hk hu hd (ih false (by simp))
  | resource hr hk hs hu hru hid => exact fun keep _ => sent_resource ho keep _ hr hk hs hu hru hid
  | asset k hs => exact fun keep _ => sent_asset ho keep _ k hs
  | archive k hs => exact fun keep _ => sent_archive ho keep _ k hs
  | @assetArchive t kvs hn hr hm _ ih =>
    intro keep hk
    obtain ⟨vs, d, ws, es, a, b, c, l, m⟩ := sent_kvs (env := env) (t := .any) (keep := false) ho (acc := [])
      (by rw [List.map_nil, List.nil_append]; exact hn) fun kv hkv => ih kv hkv false (by simp)
    obtain ⟨ms, m1, m2, m3⟩ := archiveMembers_of l hm m
    refine ⟨.dict [(Wire.sigKey, .str Wire.archiveSig), ("assets", .dict vs)], d,
      .struct [(Wire.sigKey, .str Wire.archiveSig), ("assets", .struct ws)], _, ?_, ?_, unmarshal_assets ho c ?_ m1, ?_, rfl⟩
    · simp only [ser, a, bind, Except.bind]; rfl
    · simp [toWire, toWireKvs, b]
    · rw [l]
      intro k hkm
      obtain ⟨kv, hkv, rfl⟩ := List.mem_map.1 hkm
      exact hr kv hkv
    · exact .assetArchive m2 (by simpa using m3)

theorem request_read_aux {env : Env} {o : Opts} (ho : Reads o) {typ : Option String} {keep : Bool}
    (hk : (keep && env.outputValues) = true → o.keepOutputValues = true) {inputs : List (String × PV)}
    {acc : Wire.Props} {accs : List (String × EV)} (ha : unmarshalKvs o acc.fields = .ok accs)
    (hn : (acc.fields.map (·.1) ++ inputs.map fun kv => env.topKey typ kv.1).Nodup)
    (h : ∀ kv ∈ inputs, Sendable env (env.topTy typ kv.1) kv.2) :
    ∃ P es ms, Wire.serProps env typ keep acc inputs = .ok P ∧ unmarshalKvs o P.fields = .ok es ∧
      ms.length = inputs.length ∧
      (∀ p ∈ inputs.zip ms, Means env (keep && env.outputValues) (env.topTy typ p.1.1) p.1.2 p.2) ∧
      es = accs ++ ((inputs.zip ms).filter fun p => !p.2.isNull).map fun p => (env.topKey typ p.1.1, p.2) := by
  induction inputs generalizing acc accs with
  | nil => exact ⟨acc, accs, [], by simp [Wire.serProps], ha, rfl, by simp, by simp⟩
  | cons kv inputs ih =>
    obtain ⟨k, v⟩ := kv
    obtain ⟨x, d, w, e, h1, h2, h3, h4, h5⟩ := sent ho (h (k, v) (List.mem_cons_self ..)) keep hk
    have hrest := fun kv hkv => h kv (List.mem_cons_of_mem _ hkv)
    simp only [List.map_cons] at hn
    cases hx : e.isNull with
    | true =>
      have hn' : (acc.fields.map (·.1) ++ inputs.map fun kv => env.topKey typ kv.1).Nodup := by
        refine hn.sublist ?_
        exact List.Sublist.append_left (List.sublist_cons_self ..) _
      obtain ⟨P, es, ms, a, b, c, m, q⟩ := ih ha hn' hrest
      refine ⟨P, es, e :: ms, ?_, b, by simp [c], ?_, ?_⟩
      · simp only [Wire.serProps, h1, bind, Except.bind]
        rw [show Wire.isNone x = true from h5.trans hx, if_pos rfl, a]
      · intro p hp
        rw [List.zip_cons_cons, List.mem_cons] at hp
        rcases hp with rfl | hp
        · exact h4
        · exact m p hp
      · rw [q, List.zip_cons_cons, List.filter_cons]
        simp [hx]
    | false =>
      have hfresh : ∀ kv ∈ acc.fields, kv.1 ≠ env.topKey typ k := by
        intro kv hkv heq
        have hd := (List.nodup_append.1 hn).2.2 kv.1 (List.mem_map.2 ⟨kv, hkv, rfl⟩) (env.topKey typ k)
          (List.mem_cons_self ..)
        exact hd heq
      have hset : Wire.setKey acc.fields (env.topKey typ k) w = acc.fields ++ [(env.topKey typ k, w)] :=
        Wire.setKey_fresh fun hm => by
          obtain ⟨kv, hkv, he⟩ := List.mem_map.1 hm
          exact hfresh kv hkv he
      have ha' : unmarshalKvs o (Wire.setKey acc.fields (env.topKey typ k) w) = .ok (accs ++ [(env.topKey typ k, e)]) := by
        rw [hset]
        exact unmarshalKvs_app ha (unmarshalKvs_one ho h3)
      obtain ⟨P, es, ms, a, b, c, m, q⟩ := ih (acc := ⟨Wire.setKey acc.fields (env.topKey typ k) w,
          Wire.setKey acc.deps (env.topKey typ k) d⟩) ha' (by
            simp only [hset, List.map_append, List.map_cons, List.map_nil, List.append_assoc, List.singleton_append]
            exact hn) hrest
      refine ⟨P, es, e :: ms, ?_, b, by simp [c], ?_, ?_⟩
      · simp only [Wire.serProps, h1, bind, Except.bind]
        rw [show Wire.isNone x = false from h5.trans hx]
        simp only [Bool.false_eq_true, if_false, h2]
        exact a
      · intro p hp
        rw [List.zip_cons_cons, List.mem_cons] at hp
        rcases hp with rfl | hp
        · exact h4
        · exact m p hp
      · rw [q, List.zip_cons_cons, List.filter_cons]
        simp [hx]

/-! ## Meanings are determined -/

theorem zip_unique {α β : Type} {P : α → β → Prop} {xs : List α} {es es' : List β} (hl : xs.length = es.length)
    (hl' : xs.length = es'.length) (h : ∀ p ∈ xs.zip es, ∀ e', P p.1 e' → p.2 = e') (h' : ∀ p ∈ xs.zip es', P p.1 p.2) :
    es = es' := by
  induction xs generalizing es es' with
  | nil =>
    rw [List.eq_nil_of_length_eq_zero hl.symm, List.eq_nil_of_length_eq_zero hl'.symm]
  | cons x xs ih =>
    cases es with
    | nil => simp at hl
    | cons e es =>
      cases es' with
      | nil => simp at hl'
      | cons e' es' =>
        simp only [List.length_cons, Nat.add_right_cancel_iff] at hl hl'
        rw [ih hl hl' (fun p hp => h p (by rw [List.zip_cons_cons]; exact List.mem_cons_of_mem _ hp))
          (fun p hp => h' p (by rw [List.zip_cons_cons]; exact List.mem_cons_of_mem _ hp))]
        have := h (x, e) (by rw [List.zip_cons_cons]; exact List.mem_cons_self ..) e'
          (h' (x, e') (by rw [List.zip_cons_cons]; exact List.mem_cons_self ..))
        simp only at this
        rw [this]

theorem kvs_unique {α β : Type} {P : α → β → Prop} {xs : List α} {es es' : List (String × β)} {f : α → String}
    (hl : es.map (·.1) = xs.map f) (hl' : es'.map (·.1) = xs.map f)
    (h : ∀ p ∈ xs.zip es, ∀ e', P p.1 e' → p.2.2 = e') (h' : ∀ p ∈ xs.zip es', P p.1 p.2.2) : es = es' := by
  induction xs generalizing es es' with
  | nil =>
    rw [List.map_nil, List.map_eq_nil_iff] at hl hl'
    rw [hl, hl']
  | cons x xs ih =>
    cases es with
    | nil => simp at hl
    | cons e es =>
      cases es' with
      | nil => simp at hl'
      | cons e' es' =>
        simp only [List.map_cons, List.cons.injEq] at hl hl'
        rw [ih hl.2 hl'.2 (fun p hp => h p (by rw [List.zip_cons_cons]; exact List.mem_cons_of_mem _ hp))
          (fun p hp => h' p (by rw [List.zip_cons_cons]; exact List.mem_cons_of_mem _ hp))]
        have := h (x, e) (by rw [List.zip_cons_cons]; exact List.mem_cons_self ..) e'.2
          (h' (x, e') (by rw [List.zip_cons_cons]; exact List.mem_cons_self ..))
        simp only at this
        rw [Prod.ext (hl.1.trans hl'.1.symm) this]

theorem sorted_unique {a b : List String} (ha : a.Pairwise (· ≤ ·)) (hb : b.Pairwise (· ≤ ·)) (na : a.Nodup) (nb : b.Nodup)
    (h : ∀ u, u ∈ a ↔ u ∈ b) : a = b := by
  refine List.Perm.eq_of_pairwise (le := (· ≤ ·)) (fun x y _ _ h1 h2 => String.le_antisymm h1 h2) ha hb ?_
  exact (List.perm_ext_iff_of_nodup na nb).2 h

theorem unique {env : Env} {ov : Bool} {t : Ty} {v : PV} {e : EV} (h : Means env ov t v e) :
    ∀ e', Means env ov t v e' → e = e' := by
  induction h with
  | none => intro e' h'; cases h'; rfl
  | bool => intro e' h'; cases h'; rfl
  | num => intro e' h'; cases h'; rfl
  | str => intro e' h'; cases h'; rfl
  | unknown => intro e' h'; cases h'; rfl
  | untypedList hl _ ih =>
    intro e' h'
    cases h' with
    | untypedList hl' h' => rw [zip_unique hl hl' ih h']
  | list hl _ ih =>
    intro e' h'
    cases h' with
    | list hl' h' => rw [zip_unique hl hl' ih h']
  | @dict ov t kvs es hl _ ih =>
    intro e' h'
    cases h' with
    | dict hl' h' =>
      rw [kvs_unique (P := fun kv e => Means env ov (env.mapTy t (env.mapKey t kv.1)) kv.2 e) hl hl' ih h']
  | @object ov t cls kvs es hl _ ih =>
    intro e' h'
    cases h' with
    | object hl' h' =>
      rw [kvs_unique (P := fun kv e => Means env ov (env.propTy cls kv.1) kv.2 e) hl hl' ih h']
  | awaitable _ ih => intro e' h'; cases h' with | awaitable h' => exact ih _ h'
  | @output t rs known secret v e deps h1 h2 s1 n1 m1 ih =>
    intro e' h'
    cases h' with
    | output h1' h2' s1' n1' m1' =>
      rw [sorted_unique s1 s1' n1 n1' (fun u => (m1 u).trans (m1' u).symm)]
      cases known with
      | true => rw [ih rfl _ (h1' rfl)]
      | false => rw [h2 rfl, h2' rfl]
  | unknownOutput => intro e' h'; cases h'; rfl
  | secretOutput hs _ ih =>
    intro e' h'
    cases h' with
    | secretOutput _ h' => rw [ih _ h']
    | plainOutput hf _ => rw [hf rfl] at hs; cases hs
  | plainOutput hf _ ih =>
    intro e' h'
    cases h' with
    | secretOutput hs _ => rw [hf rfl] at hs; cases hs
    | plainOutput _ h' => exact ih _ h'
  | component hc hu =>
    intro e' h'
    cases h' with
    | component _ hu' => rw [hu] at hu'; cases hu'; rfl
    | custom hc' => rw [hc] at hc'; cases hc'
    | pending hc' => rw [hc] at hc'; cases hc'
  | custom hc hu hk hv hne =>
    intro e' h'
    cases h' with
    | component hc' => rw [hc] at hc'; cases hc'
    | custom _ hu' _ hv' => rw [hu] at hu'; rw [hv] at hv'; cases hu'; cases hv'; rfl
    | pending _ _ h' =>
      rcases h' with h' | h'
      · rw [hk] at h'; cases h'
      · rw [hv] at h'; cases h'; exact absurd rfl hne
  | pending hc hu h =>
    intro e' h'
    cases h' with
    | component hc' => rw [hc] at hc'; cases hc'
    | pending _ hu' => rw [hu] at hu'; cases hu'; rfl
    | custom _ _ hk hv hne =>
      rcases h with h | h
      · rw [h] at hk; cases hk
      · rw [h] at hv; cases hv; exact absurd rfl hne
  | asset => intro e' h'; cases h'; rfl
  | archive => intro e' h'; cases h'; rfl
  | @assetArchive ov t kvs ms hl _ ih =>
    intro e' h'
    cases h' with
    | assetArchive hl' h' =>
      rw [kvs_unique (P := fun (kv : String × PV) b => Means env false .any kv.2 (.blob b)) hl hl'
        (fun p hp e' he' => by have := ih p hp _ he'; cases this; rfl) h']

end Pulumi.Engine
