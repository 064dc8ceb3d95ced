import Verif.Engine.EchoSpec
import Verif.Engine.Answers
/-! # Two parts of the engine understand each other (C131) -/
namespace Pulumi.Engine

open Wire (Env PV W)


theorem skips_reads {o : Opts} (ho : Reads o) (k : String) (n : Bool) : skips o k n = false := by
  simp [skips, ho.skipNulls, ho.skipInternalKeys]

theorem unmarshalKvs_textField {o : Opts} (ho : Reads o) (k : String) {s : String} (hs : s ∉ reserved) :
    unmarshalKvs o (textField k s) = .ok (if s = "" then [] else [(k, .str s)]) := by
  unfold textField
  by_cases h : s = ""
  · rw [if_pos h, if_pos h]; rfl
  · rw [if_neg h, if_neg h]
    exact unmarshalKvs_one ho (unmarshal_sig o hs)

/-- A string field of the object that is read. -/
def txt (k s : String) : List (String × EV) := if s = "" then [] else [(k, .str s)]

theorem lookup_append {α : Type} (a b : List (String × α)) (k : String) :
    (a ++ b).lookup k = (a.lookup k).or (b.lookup k) := by
  induction a with
  | nil => rfl
  | cons p a ih =>
    obtain ⟨k', x⟩ := p
    simp only [List.cons_append, List.lookup]
    cases k == k' with
    | true => rfl
    | false => exact ih

theorem lookup_txt (k k' s : String) : (txt k s).lookup k' = if k' = k ∧ s ≠ "" then some (.str s) else none := by
  unfold txt
  by_cases h : s = ""
  · simp [h]
  · by_cases hk : k' = k
    · subst hk; simp [h]
    · have : (k' == k) = false := by simpa using hk
      simp [h, hk, List.lookup, this]

theorem lookup_one (k k' : String) (v : EV) : [(k, v)].lookup k' = if k' = k then some v else none := by
  by_cases h : k' = k
  · subst h; simp
  · have : (k' == k) = false := by simpa using h
    simp [h, List.lookup, this]

theorem blob_read {o : Opts} (ho : Reads o) {b : Blob} (h : CleanBlob b) :
    unmarshal o (marshalBlob o b) = .ok (some (.blob b)) := by
  induction h with
  | @asset h t p u h1 h2 h3 h4 =>
    have hs : unmarshalKvs o [(sigKey, .str assetSig)] = .ok [(sigKey, .str assetSig)] :=
      unmarshalKvs_one ho (unmarshal_sig o (by decide))
    have := unmarshalKvs_app (unmarshalKvs_app (unmarshalKvs_app (unmarshalKvs_app hs (unmarshalKvs_textField ho "hash" h1))
      (unmarshalKvs_textField ho "text" h2)) (unmarshalKvs_textField ho "path" h3)) (unmarshalKvs_textField ho "uri" h4)
    rw [marshalBlob, unmarshal_struct (o := o) this]
    have hr : ∀ l, l = [(sigKey, EV.str assetSig)] ++ txt "hash" h ++ txt "text" t ++ txt "path" p ++ txt "uri" u →
        recover o l = .ok (some (.blob (.asset h t p u))) := by
      intro l hl
      have l1 : l.lookup sigKey = some (.str assetSig) := by rw [hl]; rfl
      have l2 : ∀ k s, s = "" ∧ l.lookup k = none ∨ s ≠ "" ∧ l.lookup k = some (.str s) → strField l k = .ok s := by
        rintro k s (⟨rfl, hh⟩ | ⟨_, hh⟩) <;> simp [strField, hh]
      have g : ∀ k, l.lookup k = ((((if k = sigKey then some (EV.str assetSig) else none).or
          (if k = "hash" ∧ h ≠ "" then some (.str h) else none)).or
          (if k = "text" ∧ t ≠ "" then some (.str t) else none)).or
          (if k = "path" ∧ p ≠ "" then some (.str p) else none)).or
          (if k = "uri" ∧ u ≠ "" then some (.str u) else none) := by
        intro k
        rw [hl, lookup_append, lookup_append, lookup_append, lookup_append, lookup_txt, lookup_txt, lookup_txt, lookup_txt,
          lookup_one]
      have f1 : strField l "hash" = .ok h := l2 _ _ (by rw [g]; by_cases hh : h = "" <;> simp [hh, sigKey])
      have f2 : strField l "text" = .ok t := l2 _ _ (by rw [g]; by_cases hh : t = "" <;> simp [hh, sigKey])
      have f3 : strField l "path" = .ok p := l2 _ _ (by rw [g]; by_cases hh : p = "" <;> simp [hh, sigKey])
      have f4 : strField l "uri" = .ok u := l2 _ _ (by rw [g]; by_cases hh : u = "" <;> simp [hh, sigKey])
      simp only [recover, l1, if_true, ho.rejectAssets, Bool.false_eq_true, if_false, deserializeAsset, f1, f2, f3, f4]
      rfl
    exact hr _ rfl
  | @archive h p u h1 h3 h4 =>
    have hs : unmarshalKvs o [(sigKey, .str archiveSig)] = .ok [(sigKey, .str archiveSig)] :=
      unmarshalKvs_one ho (unmarshal_sig o (by decide))
    have := unmarshalKvs_app (unmarshalKvs_app (unmarshalKvs_app hs (unmarshalKvs_textField ho "hash" h1))
      (unmarshalKvs_textField ho "path" h3)) (unmarshalKvs_textField ho "uri" h4)
    rw [marshalBlob, unmarshal_struct (o := o) this]
    have hr : ∀ l, l = [(sigKey, EV.str archiveSig)] ++ txt "hash" h ++ txt "path" p ++ txt "uri" u →
        recover o l = .ok (some (.blob (.archive h p u))) := by
      intro l hl
      have l1 : l.lookup sigKey = some (.str archiveSig) := by rw [hl]; rfl
      have l2 : ∀ k s, s = "" ∧ l.lookup k = none ∨ s ≠ "" ∧ l.lookup k = some (.str s) → strField l k = .ok s := by
        rintro k s (⟨rfl, hh⟩ | ⟨_, hh⟩) <;> simp [strField, hh]
      have g : ∀ k, l.lookup k = (((if k = sigKey then some (EV.str archiveSig) else none).or
          (if k = "hash" ∧ h ≠ "" then some (.str h) else none)).or
          (if k = "path" ∧ p ≠ "" then some (.str p) else none)).or
          (if k = "uri" ∧ u ≠ "" then some (.str u) else none) := by
        intro k
        rw [hl, lookup_append, lookup_append, lookup_append, lookup_txt, lookup_txt, lookup_txt, lookup_one]
      have f1 : strField l "hash" = .ok h := l2 _ _ (by rw [g]; by_cases hh : h = "" <;> simp [hh, sigKey])
      have f3 : strField l "path" = .ok p := l2 _ _ (by rw [g]; by_cases hh : p = "" <;> simp [hh, sigKey])
      have f4 : strField l "uri" = .ok u := l2 _ _ (by rw [g]; by_cases hh : u = "" <;> simp [hh, sigKey])
      have f5 : archiveAssets l = .ok none := by
        have : l.lookup "assets" = none := by rw [g]; simp [sigKey]
        simp [archiveAssets, this]
      have n1 : archiveSig ≠ assetSig := by decide
      simp only [recover, l1, if_neg n1, if_true, ho.rejectAssets, Bool.false_eq_true, if_false, deserializeArchive, f1, f3,
        f4, f5]
      rfl
    exact hr _ rfl
  | @assets h p u ms h1 h3 h4 hk hc ih =>
    clear hc
    have hm : unmarshalKvs o (marshalMembers o ms) = .ok (ms.map fun m => (m.1, .blob m.2)) := by
      clear hk
      induction ms with
      | nil => rfl
      | cons m ms ihm =>
        obtain ⟨k, b⟩ := m
        rw [marshalMembers, if_neg (by simp [skips_reads ho])]
        exact unmarshalKvs_cons ho (ih (k, b) (List.mem_cons_self ..)) (ihm fun m hm => ih m (List.mem_cons_of_mem _ hm))
    have hms : archiveMembers (ms.map fun m => (m.1, EV.blob m.2)) = .ok ms := by
      clear hk ih hm
      induction ms with
      | nil => rfl
      | cons m ms ihm => simp [archiveMembers, ihm, Except.map]
    have ho' : unmarshal o (.struct (marshalMembers o ms)) = .ok (some (.object (ms.map fun m => (m.1, .blob m.2)))) := by
      rw [unmarshal_struct hm, recover_object]
      simpa using fun a b hm => hk (a, b) hm
    have hs : unmarshalKvs o [(sigKey, .str archiveSig)] = .ok [(sigKey, .str archiveSig)] :=
      unmarshalKvs_one ho (unmarshal_sig o (by decide))
    have := unmarshalKvs_app (unmarshalKvs_app (unmarshalKvs_app (unmarshalKvs_app hs (unmarshalKvs_textField ho "hash" h1))
      (unmarshalKvs_one (k := "assets") ho ho')) (unmarshalKvs_textField ho "path" h3)) (unmarshalKvs_textField ho "uri" h4)
    rw [marshalBlob, unmarshal_struct (o := o) this]
    have hr : ∀ l, l = [(sigKey, EV.str archiveSig)] ++ txt "hash" h ++ [("assets", .object (ms.map fun m => (m.1, .blob m.2)))]
          ++ txt "path" p ++ txt "uri" u → recover o l = .ok (some (.blob (.assets h ms p u))) := by
      intro l hl
      have l1 : l.lookup sigKey = some (.str archiveSig) := by rw [hl]; rfl
      have l2 : ∀ k s, s = "" ∧ l.lookup k = none ∨ s ≠ "" ∧ l.lookup k = some (.str s) → strField l k = .ok s := by
        rintro k s (⟨rfl, hh⟩ | ⟨_, hh⟩) <;> simp [strField, hh]
      have g : ∀ k, l.lookup k = ((((if k = sigKey then some (EV.str archiveSig) else none).or
          (if k = "hash" ∧ h ≠ "" then some (.str h) else none)).or
          (if k = "assets" then some (.object (ms.map fun m => (m.1, .blob m.2))) else none)).or
          (if k = "path" ∧ p ≠ "" then some (.str p) else none)).or
          (if k = "uri" ∧ u ≠ "" then some (.str u) else none) := by
        intro k
        rw [hl, lookup_append, lookup_append, lookup_append, lookup_append, lookup_txt, lookup_txt, lookup_txt, lookup_one,
          lookup_one]
      have f1 : strField l "hash" = .ok h := l2 _ _ (by rw [g]; by_cases hh : h = "" <;> simp [hh, sigKey])
      have f3 : strField l "path" = .ok p := l2 _ _ (by rw [g]; by_cases hh : p = "" <;> simp [hh, sigKey])
      have f4 : strField l "uri" = .ok u := l2 _ _ (by rw [g]; by_cases hh : u = "" <;> simp [hh, sigKey])
      have f5 : archiveAssets l = .ok (some ms) := by
        have : l.lookup "assets" = some (.object (ms.map fun m => (m.1, .blob m.2))) := by rw [g]; simp [sigKey]
        simp [archiveAssets, this, hms, Except.map]
      have n1 : archiveSig ≠ assetSig := by decide
      simp only [recover, l1, if_neg n1, if_true, ho.rejectAssets, Bool.false_eq_true, if_false, deserializeArchive, f1, f3,
        f4, f5]
      rfl
    exact hr _ rfl

theorem list_read {o : Opts} {es : List EV}
    (h : ∀ e ∈ es, ∃ w, marshal o e = .ok (some w) ∧ unmarshal o w = .ok (some e)) :
    ∃ ws, marshalList o es = .ok ws ∧ unmarshalList o ws = .ok es := by
  induction es with
  | nil => exact ⟨[], rfl, rfl⟩
  | cons e es ih =>
    obtain ⟨w, h1, h2⟩ := h e (List.mem_cons_self ..)
    obtain ⟨ws, h3, h4⟩ := ih fun x hx => h x (List.mem_cons_of_mem _ hx)
    refine ⟨w :: ws, ?_, ?_⟩
    · simp only [marshalList, h1, h3, bind, Except.bind]; rfl
    · simp only [unmarshalList, h2, h4, bind, Except.bind]; rfl

theorem kvs_read {o : Opts} (ho : Reads o) {kvs : List (String × EV)}
    (h : ∀ kv ∈ kvs, ∃ w, marshal o kv.2 = .ok (some w) ∧ unmarshal o w = .ok (some kv.2)) :
    ∃ ws, marshalKvs o kvs = .ok ws ∧ unmarshalKvs o ws = .ok kvs := by
  induction kvs with
  | nil => exact ⟨[], rfl, rfl⟩
  | cons kv kvs ih =>
    obtain ⟨k, e⟩ := kv
    obtain ⟨w, h1, h2⟩ := h (k, e) (List.mem_cons_self ..)
    obtain ⟨ws, h3, h4⟩ := ih fun x hx => h x (List.mem_cons_of_mem _ hx)
    refine ⟨(k, w) :: ws, ?_, unmarshalKvs_cons ho h2 h4⟩
    simp only at h1
    rw [marshalKvs, if_neg (by simp [skips_reads ho])]
    simp only [h1, h3, bind, Except.bind]
    rfl

theorem ref_read {o : Opts} (ho : Reads o) {urn version : String} {id : RefId} (hu : urn ∉ reserved) (hv : version ∉ reserved)
    (hi : ∀ s, id = .known s → s ≠ "" ∧ s ∉ reserved) :
    ∃ w, marshal o (.ref urn id version) = .ok (some w) ∧ unmarshal o w = .ok (some (.ref urn id version)) := by
  refine ⟨_, by rw [marshal]; unfold marshalRef; rw [if_pos ho.keepResources], ?_⟩
  have h1 : unmarshalKvs o [(sigKey, .str resourceSig), ("urn", .str urn)] =
      .ok [(sigKey, .str resourceSig), ("urn", .str urn)] :=
    unmarshalKvs_cons ho (unmarshal_sig o (by decide)) (unmarshalKvs_one ho (unmarshal_sig o hu))
  have h3 : unmarshalKvs o (if version = "" then [] else [("packageVersion", .str version)]) =
      .ok (if version = "" then [] else [("packageVersion", .str version)]) := by
    by_cases h : version = ""
    · rw [if_pos h, if_pos h]; rfl
    · rw [if_neg h, if_neg h]
      exact unmarshalKvs_one ho (unmarshal_sig o hv)
  have n1 : resourceSig ≠ assetSig := by decide
  have n2 : resourceSig ≠ archiveSig := by decide
  have n3 : resourceSig ≠ secretSig := by decide
  have fin : ∀ l, l.lookup sigKey = some (EV.str resourceSig) → refUrn l = .ok urn → refId l = .ok id →
      refVersion l = .ok version → recover o l = .ok (some (.ref urn id version)) := by
    intro l l1 l2 l3 l4
    simp only [recover, l1, if_neg n1, if_neg n2, if_neg n3, if_true, recoverRef, l2, l3, l4, bind, Except.bind,
      ho.keepResources]
    rfl
  cases id with
  | none =>
    have := unmarshalKvs_app h1 h3
    simp only [List.append_nil]
    rw [unmarshal_struct (o := o) this]
    refine fin _ rfl rfl ?_ ?_ <;> by_cases h : version = "" <;> simp [refId, refVersion, h, List.lookup, sigKey]
  | known s =>
    obtain ⟨hs0, hs⟩ := hi s rfl
    have h2 : unmarshalKvs o [("id", .str s)] = .ok [("id", .str s)] := unmarshalKvs_one ho (unmarshal_sig o hs)
    have := unmarshalKvs_app (unmarshalKvs_app h1 h2) h3
    rw [unmarshal_struct (o := o) this]
    refine fin _ rfl rfl ?_ ?_ <;> by_cases h : version = "" <;> simp [refId, refVersion, h, hs0, List.lookup, sigKey]
  | unknown =>
    have h2 : unmarshalKvs o [("id", .str "")] = .ok [("id", .str "")] := unmarshalKvs_one ho (unmarshal_sig o (by decide))
    have := unmarshalKvs_app (unmarshalKvs_app h1 h2) h3
    rw [unmarshal_struct (o := o) this]
    refine fin _ rfl rfl ?_ ?_ <;> by_cases h : version = "" <;> simp [refId, refVersion, h, List.lookup, sigKey]

/-! ## C131 -/

/-- **C131.** What one part of the engine writes, another part with the same options reads as the same value. -/
theorem engine_echo {o : Opts} (ho : Reads o) {e : EV} (h : Clean o.keepOutputValues e) :
    ∃ w, marshal o e = .ok (some w) ∧ unmarshal o w = .ok (some e) := by
  generalize hk : o.keepOutputValues = ov at h
  induction h with
  | null => exact ⟨.null, rfl, rfl⟩
  | bool b => exact ⟨.bool b, rfl, rfl⟩
  | num n => exact ⟨.num n, rfl, rfl⟩
  | @str s hs => exact ⟨.str s, rfl, unmarshal_sig o hs⟩
  | computed he =>
    cases he <;> refine ⟨_, by simp only [marshal, marshalComputed, ho.rejectUnknowns, ho.keepUnknowns]; rfl, ?_⟩ <;>
      simp [unmarshal, unmarshalStr, sentinel, ho.rejectUnknowns, ho.keepUnknowns, unknownBool, unknownNumber, unknownString,
        unknownArray, unknownObject, unknownAsset, unknownArchive]
  | secret _ ih =>
    obtain ⟨w, h1, h2⟩ := ih
    refine ⟨.struct [(sigKey, .str secretSig), ("value", w)], ?_, unmarshal_secret ho h2⟩
    simp only [marshal, marshalSecret, ho.keepSecrets, if_true, h1, bind, Except.bind, field, skips_reads ho]
    rfl
  | array _ ih =>
    obtain ⟨ws, h1, h2⟩ := list_read ih
    exact ⟨.list ws, by simp [marshal, h1, Except.map], by simp [unmarshal, h2, Except.map]⟩
  | object hr _ ih =>
    obtain ⟨ws, h1, h2⟩ := kvs_read ho ih
    refine ⟨.struct ws, by simp [marshal, h1, Except.map], ?_⟩
    rw [unmarshal_struct h2, recover_object]
    intro k hkm
    obtain ⟨kv, hkv, rfl⟩ := List.mem_map.1 hkm
    exact hr kv hkv
  | component hu hv => exact ref_read ho hu hv (by simp)
  | custom hu hv h0 hs => exact ref_read ho hu hv (by rintro s' ⟨⟩; exact ⟨h0, hs⟩)
  | pending hu hv => exact ref_read ho hu hv (by simp)
  | blob hb => exact ⟨_, by simp [marshal, ho.rejectAssets], blob_read ho hb⟩
  | @output e s deps hov _ hd ih =>
    obtain ⟨w, h1, h2⟩ := ih
    refine ⟨.struct (Wire.outputWire true s w deps), ?_, ?_⟩
    · simp only [marshal, hk, hov, if_true, valueField, h1, Except.map, field, skips_reads ho, outputStruct, Wire.outputWire]
      rfl
    · have := unmarshal_outputWire ho (k := true) (s := s) (hk.trans hov) (fun _ => h2) hd
      simpa using this
  | @unknownOutput s deps hov hd =>
    refine ⟨.struct (Wire.outputWire false s .null deps), ?_, ?_⟩
    · simp only [marshal, hk, hov, if_true, valueField, Except.map, outputStruct, Wire.outputWire]
      rfl
    · have := unmarshal_outputWire ho (k := false) (s := s) (w := .null) (e := .null) (hk.trans hov) (by simp) hd
      simpa using this

/-- **C131**, for properties. -/
theorem properties_echo {o : Opts} (ho : Reads o) {kvs : List (String × EV)}
    (h : ∀ kv ∈ kvs, Clean o.keepOutputValues kv.2) :
    ∃ ws, marshalKvs o kvs = .ok ws ∧ unmarshalKvs o ws = .ok kvs :=
  kvs_read ho fun kv hkv => engine_echo ho (h kv hkv)

/-- Non-trivial instance. -/
example : ∃ w, marshal (reading true) (.output (.array [.secret (.num 1), .computed (.array [])]) true true ["urn:a"]) = .ok (some w) ∧
    unmarshal (reading true) w = .ok (some (.output (.array [.secret (.num 1), .computed (.array [])]) true true ["urn:a"])) := by
  refine engine_echo (reads_reading true) (.output rfl (.array ?_) (by decide))
  intro e he
  simp only [List.mem_cons, List.not_mem_nil, or_false] at he
  rcases he with rfl | rfl
  · exact .secret (.num 1)
  · exact .computed .array

/-- **C131**, negation: an Output with a value that is not kept does not stay an Output: its value comes back, and
without secrets, that it was secret is lost as well. -/
theorem dropped_output_echo {o : Opts} (hk : o.keepOutputValues = false) (e : EV) (deps : List String) :
    marshal o (.output e true false deps) = marshal o e ∧
      marshal o (.output e true true deps) = marshal o (.secret e) := by
  simp [marshal, hk]

/-! ## Data of a program through the engine -/

theorem data_sendable {env : Env} (ht : env.transform = none) {v : PV} (h : Data v) : Sendable env .any v := by
  have hk : ∀ k, env.mapKey .any k = k := by intro k; simp [Env.mapKey, Env.translate, ht]
  induction h with
  | none => exact .none
  | bool b => exact .bool b
  | num n => exact .num n
  | str hs => exact .str hs
  | list _ ih => exact .untypedList ih
  | dict hn hr _ _ ih => exact .dict (by simpa [hk] using hn) (by simpa [hk] using fun a b h => hr (a, b) h) (fun kv hkv => ih kv hkv)

theorem data_known {v : PV} (h : Data v) : ¬ Wire.ContainsUnknown v := by
  rw [← Wire.hasUnknown_iff]
  have : Wire.hasUnknown v = false := by
    induction h with
    | none => rfl
    | bool => rfl
    | num => rfl
    | str => rfl
    | list _ ih => rw [Wire.hasUnknown]; exact Wire.hasUnknownList_false ih
    | dict _ _ _ _ ih => rw [Wire.hasUnknown]; exact Wire.hasUnknownKvs_false ih
  simp [this]

theorem data_shown {env : Env} (ht : env.transform = none) {v : PV} (h : Data v) (a r keep : Bool) :
    ∀ e, Means env false .any v e → Shown env a r keep e false (Wire.dropNones v) := by
  have hk : ∀ k, env.mapKey .any k = k := by intro k; simp [Env.mapKey, Env.translate, ht]
  induction h with
  | none => intro e he; cases he; exact .null
  | bool b => intro e he; cases he; exact .bool b
  | num n => intro e he; cases he; exact .num n
  | str hs => intro e he; cases he; exact .str (fun h => hs (by rw [h]; decide))
  | @list xs _ ih =>
    intro e he
    cases he with
    | @untypedList _ _ es hl hm =>
      have key : ∀ (xs : List PV) (es : List EV), xs.length = es.length → (∀ p ∈ xs.zip es, Means env false .any p.1 p.2) →
          (∀ x ∈ xs, ∀ e, Means env false .any x e → Shown env a r keep e false (Wire.dropNones x)) →
          ∃ rs : List (Bool × PV), es.length = rs.length ∧ (∀ q ∈ es.zip rs, Shown env a r keep q.1 q.2.1 q.2.2) ∧
            rs.any (·.1) = false ∧ rs.map (·.2) = Wire.dropNonesList xs := by
        intro xs
        induction xs with
        | nil =>
          intro es hl _ _
          rw [List.eq_nil_of_length_eq_zero hl.symm]
          exact ⟨[], rfl, by simp, rfl, rfl⟩
        | cons x xs ihx =>
          intro es hl hm ih
          cases es with
          | nil => simp at hl
          | cons e es =>
            obtain ⟨rs, a1, a2, a3, a4⟩ := ihx es (by simpa using hl)
              (fun p hp => hm p (by rw [List.zip_cons_cons]; exact List.mem_cons_of_mem _ hp))
              (fun y hy => ih y (List.mem_cons_of_mem _ hy))
            refine ⟨(false, Wire.dropNones x) :: rs, by simp [a1], ?_, by simpa using a3, by simp [Wire.dropNonesList, a4]⟩
            intro q hq
            rw [List.zip_cons_cons, List.mem_cons] at hq
            rcases hq with rfl | hq
            · exact ih x (List.mem_cons_self ..) e (hm (x, e) (by rw [List.zip_cons_cons]; exact List.mem_cons_self ..))
            · exact a2 q hq
      obtain ⟨rs, a1, a2, a3, a4⟩ := key xs es hl hm ih
      have := Shown.array (env := env) (secrets := a) (resources := r) (keep := keep) a1 a2
      rw [a3, a4] at this
      rw [Wire.dropNones]
      exact this
  | @dict kvs hn hr hh _ ih =>
    intro e he
    cases he with
    | @dict _ _ _ es hl hm =>
      have key : ∀ (kvs : List (String × PV)) (es : List (String × EV)), es.map (·.1) = kvs.map (fun kv => env.mapKey .any kv.1) →
          (∀ p ∈ kvs.zip es, Means env false .any p.1.2 p.2.2) → (∀ kv ∈ kvs, hidden kv.1 = false) →
          (∀ kv ∈ kvs, ∀ e, Means env false .any kv.2 e → Shown env a r keep e false (Wire.dropNones kv.2)) →
          ∃ rs : List (Bool × PV), es.length = rs.length ∧ (∀ q ∈ es.zip rs, Shown env a r keep q.1.2 q.2.1 q.2.2) ∧
            (((es.zip rs).filter fun q => !hidden q.1.1 && (q.2.1 || !Wire.isNone q.2.2)).any fun q => q.2.1) = false ∧
            (((es.zip rs).filter fun q => !hidden q.1.1 && (q.2.1 || !Wire.isNone q.2.2)).map fun q => (q.1.1, q.2.2)) =
              Wire.dropNonesKvs kvs := by
        intro kvs
        induction kvs with
        | nil =>
          intro es hl _ _ _
          have : es = [] := by simpa using hl
          subst this
          exact ⟨[], rfl, by simp, rfl, rfl⟩
        | cons kv kvs ihx =>
          obtain ⟨k, x⟩ := kv
          intro es hl hm hh ih
          cases es with
          | nil => simp at hl
          | cons p es =>
            obtain ⟨k', e⟩ := p
            simp only [List.map_cons, List.cons.injEq, hk] at hl
            obtain ⟨hk', hl⟩ := hl
            subst hk'
            obtain ⟨rs, a1, a2, a3, a4⟩ := ihx es (by simpa [hk] using hl)
              (fun p hp => hm p (by rw [List.zip_cons_cons]; exact List.mem_cons_of_mem _ hp))
              (fun y hy => hh y (List.mem_cons_of_mem _ hy)) (fun y hy => ih y (List.mem_cons_of_mem _ hy))
            have hvis := hh (k', x) (List.mem_cons_self ..)
            simp only at hvis
            refine ⟨(false, Wire.dropNones x) :: rs, by simp [a1], ?_, ?_, ?_⟩
            · intro q hq
              rw [List.zip_cons_cons, List.mem_cons] at hq
              rcases hq with rfl | hq
              · exact ih (k', x) (List.mem_cons_self ..) e
                  (hm ((k', x), (k', e)) (by rw [List.zip_cons_cons]; exact List.mem_cons_self ..))
              · exact a2 q hq
            · rw [List.zip_cons_cons, List.filter_cons]
              split
              · rw [List.any_cons, a3]; rfl
              · exact a3
            · rw [List.zip_cons_cons, List.filter_cons]
              simp only [hvis, Bool.not_false, Bool.true_and, Bool.false_or, Wire.isNone_dropNones, Wire.dropNonesKvs]
              cases hx : Wire.isNone x with
              | true => simpa using a4
              | false => simpa using a4
      obtain ⟨rs, a1, a2, a3, a4⟩ := key kvs es hl hm hh ih
      have hkeys : ∀ kv ∈ es, kv.1 ≠ reservedKey := by
        intro kv hkv
        have : kv.1 ∈ kvs.map (fun kv => env.mapKey .any kv.1) := by rw [← hl]; exact List.mem_map.2 ⟨kv, hkv, rfl⟩
        obtain ⟨q, hq, he⟩ := List.mem_map.1 this
        rw [← he, hk]
        exact hr q hq
      have := Shown.object (env := env) (secrets := a) (resources := r) (keep := keep) a1 hkeys a2 rfl
      rw [a3, a4] at this
      rw [Wire.dropNones]
      exact this

/-- **C131**, through both codecs: data that a program passes and the engine returns unchanged is what the program gets
back, without the names whose value is `None`. -/
theorem data_comes_back {env : Env} (ht : env.transform = none) {o : Opts} (ho : Reads o) (a r keep : Bool) {v : PV}
    (h : Data v) :
    ∃ x d w e w', Wire.ser env false .any v = .ok (x, d) ∧ Wire.toWire x = some w ∧ unmarshal o w = .ok (some e) ∧
      marshal (answering a r) e = .ok (some w') ∧ Wire.des env keep w' = .ok (Wire.dropNones v) := by
  obtain ⟨x, d, w, e, h1, h2, h3, h4⟩ := engine_reads (env := env) ho (keep := false) (by simp) (data_sendable ht h)
  obtain ⟨w', h5, h6⟩ := answer_seen (data_shown ht h a r keep e h4)
  exact ⟨x, d, w, e, w', h1, h2, h3, h5, h6⟩

/-- **C131**: a secret Output with data comes back as a secret with the data, whatever the program's data is. -/
theorem secret_comes_back {env : Env} (ht : env.transform = none) (hs : env.secrets = true) {o : Opts} (ho : Reads o)
    (r keep : Bool) {v : PV} (h : Data v) (rs : List Wire.ResId)
    (hd : ∀ u, DependsOn env (.output rs true true v) u → u ∉ reserved) :
    ∃ x d w e w', Wire.ser env false .any (.output rs true true v) = .ok (x, d) ∧ Wire.toWire x = some w ∧
      unmarshal o w = .ok (some e) ∧ marshal (answering true r) e = .ok (some w') ∧
      Wire.des env keep w' = .ok (.dict [("4dabf18193072939515e22adb298388d", .str "1b47061264138c4ac30d75fd1eb44270"),
        ("value", Wire.dropNones v)]) := by
  obtain ⟨x, d, w, e, h1, h2, h3, h4⟩ := engine_reads (env := env) ho (keep := false) (by simp) (t := .any)
    (.output (rs := rs) (secret := true) (data_sendable ht h) (fun _ => data_known h) hd)
  cases h4 with
  | secretOutput _ h4 =>
    obtain ⟨w', h5, h6⟩ := answer_seen (keep := keep) (.secret rfl (data_shown ht h true r false _ h4))
    exact ⟨x, d, w, _, w', h1, h2, h3, h5, h6⟩
  | plainOutput hf _ => rw [hf rfl] at hs; cases hs

theorem sampleData : Data (.dict [("name", .str "n"), ("tags", .list [.num 1, .none, .dict [("a", .none)]])]) := by
  refine .dict (by decide) (by decide) (by decide) ?_
  intro kv hkv
  simp only [List.mem_cons, List.not_mem_nil, or_false] at hkv
  rcases hkv with rfl | rfl
  · exact .str (by decide)
  · refine .list ?_
    intro x hx
    simp only [List.mem_cons, List.not_mem_nil, or_false] at hx
    rcases hx with rfl | rfl | rfl
    · exact .num 1
    · exact .none
    · refine .dict (by decide) (by decide) (by decide) ?_
      intro kv hkv
      simp only [List.mem_cons, List.not_mem_nil, or_false] at hkv
      subst hkv
      exact .none

/-- Non-trivial instance: nested data with nulls, inside a secret Output. -/
example : ∃ x d w e w', Wire.ser Wire.sampleEnv false .any (.output [.decl 0] true true
      (.dict [("name", .str "n"), ("tags", .list [.num 1, .none, .dict [("a", .none)]])])) = .ok (x, d) ∧
    Wire.toWire x = some w ∧ unmarshal (reading false) w = .ok (some e) ∧
    marshal (answering true true) e = .ok (some w') ∧
    Wire.des Wire.sampleEnv false w' = .ok (.dict [("4dabf18193072939515e22adb298388d", .str "1b47061264138c4ac30d75fd1eb44270"),
      ("value", .dict [("name", .str "n"), ("tags", .list [.num 1, .none, .dict []])])]) :=
  secret_comes_back (env := Wire.sampleEnv) rfl rfl (reads_reading false) true false sampleData [.decl 0]
    (depends_sample (rs := [.decl 0]) (pd := []) rfl rfl)

end Pulumi.Engine
