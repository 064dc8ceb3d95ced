import Verif.Engine.AnswerSpec
import Verif.Wire.Theorems
/-! # Lemmas: what the engine answers is seen by the program as specified -/
namespace Pulumi.Engine

open Wire (Env PV ResId W des desList desKvs desStruct collect secretDict isRpcSecret unwrapSecret wrapSecret isNone)

/-- A value with its mark. -/
def marked (b : Bool) (v : PV) : PV := if b then secretDict v else v

theorem unwrap_marked {b : Bool} {v : PV} (h : isRpcSecret v = false) : unwrapSecret (marked b v) = v := by
  cases b with
  | false => simp [marked, unwrapSecret, h]
  | true => exact Wire.unwrap_secretDict v

theorem secret_marked {b : Bool} {v : PV} (h : isRpcSecret v = false) : isRpcSecret (marked b v) = b := by
  cases b with
  | false => exact h
  | true => exact Wire.isRpcSecret_secretDict v

theorem wrap_marked {b : Bool} {v : PV} (h : isRpcSecret v = false) : wrapSecret (marked b v) = secretDict v := by
  cases b with
  | false => simp [marked, wrapSecret, h]
  | true =>
    rw [wrapSecret, if_pos (secret_marked h)]
    rfl

theorem none_marked {b : Bool} {v : PV} : isNone (marked b v) = (!b && isNone v) := by
  cases b <;> simp [marked, secretDict, isNone]

theorem bubble_secret {v : PV} (h : isRpcSecret v = false) : Wire.bubbleDict (secretDict v) = secretDict v := by
  simp only [secretDict, Wire.bubbleDict, List.any_cons, List.any_nil, h]
  rfl

/-- What the program makes of the answer. -/
def SeenAs (env : Env) (o : Opts) (keep : Bool) (e : EV) (b : Bool) (v : PV) : Prop :=
  ∃ w, marshal o e = .ok (some w) ∧ des env keep w = .ok (marked b v) ∧ isRpcSecret v = false

theorem hidden_eq (k : String) : hidden k = (Wire.isInternal k && k != "__provider") := by
  unfold hidden Wire.isInternal
  congr 1
  rw [show "__".toList = ['_', '_'] from rfl]
  generalize k.toList = cs
  match cs with
  | [] => rfl
  | [a] => simp [List.isPrefixOf]
  | a :: b :: cs =>
    by_cases ha : a = '_'
    · by_cases hb : b = '_'
      · subst ha hb; simp [List.isPrefixOf]
      · subst ha
        simp only [List.isPrefixOf]
        split
        · rename_i h; cases h; exact absurd rfl hb
        · simp [Ne.symm hb]
    · simp only [List.isPrefixOf]
      split
      · rename_i h; cases h; exact absurd rfl ha
      · simp [Ne.symm ha]

theorem marshalBlob_str (o : Opts) (b : Blob) : ∃ kvs, marshalBlob o b = .struct kvs := by
  cases b <;> exact ⟨_, by rw [marshalBlob]⟩

theorem skips_answering (a r : Bool) (k : String) (n : Bool) : skips (answering a r) k n = false := rfl

theorem collect_blobs {env : Env} {a r keep : Bool} {ms : List (String × Blob)} {vs : List PV} (hl : ms.length = vs.length)
    (h : ∀ q ∈ ms.zip vs, des env keep (marshalBlob (answering a r) q.1.2) = .ok q.2 ∧ isNone q.2 = false ∧
      isRpcSecret q.2 = false ∧ Wire.isAssetOrArchive q.2 = true) :
    collect false (desKvs env keep (marshalMembers (answering a r) ms)) =
      .ok (((ms.zip vs).filter fun q => !hidden q.1.1).map fun q => (q.1.1, q.2)) := by
  induction ms generalizing vs with
  | nil => simp [marshalMembers, desKvs, collect]
  | cons m ms ih =>
    obtain ⟨k, b⟩ := m
    cases vs with
    | nil => simp at hl
    | cons v vs =>
      simp only [List.length_cons, Nat.add_right_cancel_iff] at hl
      obtain ⟨h1, h2, _⟩ := h ((k, b), v) (by rw [List.zip_cons_cons]; exact List.mem_cons_self ..)
      have ih := ih hl (fun q hq => h q (by rw [List.zip_cons_cons]; exact List.mem_cons_of_mem _ hq))
      simp only at h1 h2
      simp only [marshalMembers, skips_answering, Bool.false_eq_true, if_false, desKvs, collect, Bool.not_false,
        Bool.true_and, List.zip_cons_cons, List.filter_cons, hidden_eq k, h1, h2, ih]
      cases (Wire.isInternal k && k != "__provider") <;> simp [Except.map]

theorem marshalMembers_keys {a r : Bool} (ms : List (String × Blob)) :
    (marshalMembers (answering a r) ms).map (·.1) = ms.map (·.1) := by
  induction ms with
  | nil => rfl
  | cons m ms ih =>
    obtain ⟨k, b⟩ := m
    simp [marshalMembers, skips_answering, ih]

theorem lookup_textField_ne {k k' s : String} (h : k' ≠ k) (rest : List (String × W)) :
    (textField k s ++ rest).lookup k' = rest.lookup k' := by
  unfold textField
  split
  · rfl
  · have : (k' == k) = false := by simpa using h
    simp [List.lookup, this]

theorem lookup_textField {k s : String} (h : s ≠ "") (rest : List (String × W)) :
    (textField k s ++ rest).lookup k = some (.str s) := by
  simp [textField, h]

theorem lookup_textField_empty {k k' : String} (rest : List (String × W)) :
    (textField k "" ++ rest).lookup k' = rest.lookup k' := rfl

theorem des_asset {env : Env} {keep : Bool} {kvs : List (String × W)} {v : PV}
    (h : Wire.desAsset ((sigKey, .str assetSig) :: kvs) = .ok v) (hv : ∀ l, v ≠ .dict l) :
    des env keep (.struct ((sigKey, .str assetSig) :: kvs)) = .ok v := by
  have h1 : ((sigKey, W.str assetSig) :: kvs).lookup Wire.sigKey = some (.str assetSig) := List.lookup_cons_self
  have h2 : assetSig = Wire.assetSig := rfl
  simp only [des, desStruct, h1, if_pos h2, h, Except.map]
  rw [Wire.bubbleDict_bubbled_nondict hv]

theorem des_archive {env : Env} {keep : Bool} {kvs : List (String × W)} {v : PV}
    (h : Wire.desArchive ((sigKey, .str archiveSig) :: kvs) (desKvs env false ((sigKey, .str archiveSig) :: kvs)) = .ok v)
    (hv : ∀ l, v ≠ .dict l) : des env keep (.struct ((sigKey, .str archiveSig) :: kvs)) = .ok v := by
  have h1 : ((sigKey, W.str archiveSig) :: kvs).lookup Wire.sigKey = some (.str archiveSig) := List.lookup_cons_self
  have h2 : archiveSig ≠ Wire.assetSig := by decide
  have h3 : archiveSig = Wire.archiveSig := rfl
  simp only [des, desStruct, h1, if_neg h2, if_pos h3, h, Except.map]
  rw [Wire.bubbleDict_bubbled_nondict hv]

theorem lookup_cons_ne {k k' : String} {w : W} {rest : List (String × W)} (h : k' ≠ k) :
    ((k, w) :: rest).lookup k' = rest.lookup k' := by
  have : (k' == k) = false := by simpa using h
  simp [List.lookup, this]

theorem lookup_text_nil {k k' s : String} (h : k' ≠ k) : (textField k s).lookup k' = none := by
  have := lookup_textField_ne (s := s) h []
  simpa using this

theorem lookup_text_same {k s : String} (h : s ≠ "") : (textField k s).lookup k = some (.str s) := by
  have := lookup_textField (k := k) h []
  simpa using this

theorem shown_blob {env : Env} {a r : Bool} {b : Blob} {v : PV} (h : ShownBlob b v) :
    (∀ keep, des env keep (marshalBlob (answering a r) b) = .ok v) ∧ isNone v = false ∧ isRpcSecret v = false ∧
      Wire.isAssetOrArchive v = true := by
  induction h with
  | @file h t p u hp =>
    refine ⟨fun keep => ?_, rfl, rfl, rfl⟩
    rw [marshalBlob]
    simp only [List.append_assoc, List.cons_append, List.nil_append]
    refine des_asset ?_ (by simp)
    simp only [Wire.desAsset]
    rw [lookup_cons_ne (by decide), lookup_textField_ne (by decide), lookup_textField_ne (by decide), lookup_textField hp]
    rfl
  | @text h t u ht =>
    refine ⟨fun keep => ?_, rfl, rfl, rfl⟩
    rw [marshalBlob]
    simp only [List.append_assoc, List.cons_append, List.nil_append]
    refine des_asset ?_ (by simp)
    simp only [Wire.desAsset]
    rw [lookup_cons_ne (by decide), lookup_textField_ne (by decide), lookup_textField_ne (by decide),
      lookup_textField_empty, lookup_text_nil (by decide)]
    simp only
    rw [lookup_cons_ne (by decide), lookup_textField_ne (by decide), lookup_textField ht]
    rfl
  | @remote h u hu =>
    refine ⟨fun keep => ?_, rfl, rfl, rfl⟩
    rw [marshalBlob]
    simp only [List.append_assoc, List.cons_append, List.nil_append]
    refine des_asset ?_ (by simp)
    simp only [Wire.desAsset]
    rw [lookup_cons_ne (by decide), lookup_textField_ne (by decide), lookup_textField_empty, lookup_textField_empty,
      lookup_text_nil (by decide)]
    simp only
    rw [lookup_cons_ne (by decide), lookup_textField_ne (by decide), lookup_textField_empty, lookup_textField_empty,
      lookup_text_nil (by decide)]
    simp only
    rw [lookup_cons_ne (by decide), lookup_textField_ne (by decide), lookup_textField_empty, lookup_textField_empty,
      lookup_text_same hu]
    rfl
  | @fileArchive h p u hp =>
    refine ⟨fun keep => ?_, rfl, rfl, rfl⟩
    rw [marshalBlob]
    simp only [List.append_assoc, List.cons_append, List.nil_append]
    refine des_archive ?_ (by simp)
    simp only [Wire.desArchive]
    rw [lookup_cons_ne (by decide), lookup_textField_ne (by decide), lookup_textField_ne (by decide), lookup_text_nil (by decide)]
    simp only
    rw [lookup_cons_ne (by decide), lookup_textField_ne (by decide), lookup_textField hp]
    rfl
  | @remoteArchive h u hu =>
    refine ⟨fun keep => ?_, rfl, rfl, rfl⟩
    rw [marshalBlob]
    simp only [List.append_assoc, List.cons_append, List.nil_append]
    refine des_archive ?_ (by simp)
    simp only [Wire.desArchive]
    rw [lookup_cons_ne (by decide), lookup_textField_ne (by decide), lookup_textField_empty, lookup_text_nil (by decide)]
    simp only
    rw [lookup_cons_ne (by decide), lookup_textField_ne (by decide), lookup_textField_empty, lookup_text_nil (by decide)]
    simp only
    rw [lookup_cons_ne (by decide), lookup_textField_ne (by decide), lookup_textField_empty, lookup_text_same hu]
    rfl
  | @assets h p u ms vs hl hk _ ih =>
    have hc := collect_blobs (env := env) (a := a) (r := r) (keep := false) hl
      (fun q hq => ⟨(ih q hq).1 false, (ih q hq).2⟩)
    refine ⟨fun keep => ?_, rfl, rfl, rfl⟩
    rw [marshalBlob]
    simp only [List.append_assoc, List.cons_append, List.nil_append]
    refine des_archive ?_ (by simp)
    simp only [Wire.desArchive, Wire.Decoded.get, Wire.desKvs_lookup]
    rw [lookup_cons_ne (by decide), lookup_textField_ne (by decide), List.lookup_cons_self]
    have hs : (marshalMembers (answering a r) ms).lookup Wire.sigKey = none := by
      apply Wire.lookup_none
      rw [marshalMembers_keys]
      intro hm
      obtain ⟨m, hm, he⟩ := List.mem_map.1 hm
      exact hk m hm he
    have hd : des env false (.struct (marshalMembers (answering a r) ms)) =
        .ok (.dict (((ms.zip vs).filter fun q => !hidden q.1.1).map fun q => (q.1.1, q.2))) := by
      simp only [des, desStruct, hs, hc, Except.map]
      rw [Wire.bubbleDict]
      rw [if_neg]
      simp only [List.any_map, List.any_filter, List.any_eq_true, not_exists, not_and]
      rintro q hq
      simp [(ih q hq).2.2.1]
    simp only [Option.map, hd, Except.bind, Wire.mkAssetArchive]
    rw [if_pos]
    simp only [List.all_map, List.all_filter, List.all_eq_true]
    intro q hq
    simp [(ih q hq).2.2.2]

/-! ## Values -/

theorem programUnknown_eq : programUnknown = Wire.UNKNOWN := rfl

theorem desStr_unknown (env : Env) (keep : Bool) : Wire.desStr env.dryRun keep unknownString = pending env keep := by
  simp [Wire.desStr, pending, Wire.UNKNOWN, unknownString]

theorem pending_not_secret (env : Env) (keep : Bool) : isRpcSecret (pending env keep) = false := by
  unfold pending; split <;> rfl

theorem pending_not_dict (env : Env) (keep : Bool) (l : List (String × PV)) : pending env keep ≠ .dict l := by
  unfold pending; split <;> simp

theorem seen_list {env : Env} {o : Opts} {keep : Bool} {es : List EV} {rs : List (Bool × PV)} (hl : es.length = rs.length)
    (h : ∀ q ∈ es.zip rs, SeenAs env o keep q.1 q.2.1 q.2.2) :
    ∃ ws, marshalList o es = .ok ws ∧ desList env keep ws = .ok (rs.map fun q => marked q.1 q.2) ∧
      ∀ q ∈ rs, isRpcSecret q.2 = false := by
  induction es generalizing rs with
  | nil =>
    rw [List.eq_nil_of_length_eq_zero hl.symm]
    exact ⟨[], rfl, rfl, by simp⟩
  | cons e es ih =>
    cases rs with
    | nil => simp at hl
    | cons q rs =>
      simp only [List.length_cons, Nat.add_right_cancel_iff] at hl
      obtain ⟨w, h1, h2, h3⟩ := h (e, q) (by rw [List.zip_cons_cons]; exact List.mem_cons_self ..)
      obtain ⟨ws, a, b, c⟩ := ih hl (fun q hq => h q (by rw [List.zip_cons_cons]; exact List.mem_cons_of_mem _ hq))
      refine ⟨w :: ws, ?_, ?_, ?_⟩
      · simp only [marshalList, h1, a, bind, Except.bind]; rfl
      · simp only [desList, h2, b, bind, Except.bind]; rfl
      · intro q' hq'
        rcases List.mem_cons.1 hq' with rfl | hq'
        · exact h3
        · exact c q' hq'

/-- The entries of an object that are seen. -/
def seenOf (all : Bool) (kvs : List (String × EV)) (rs : List (Bool × PV)) : List ((String × EV) × (Bool × PV)) :=
  (kvs.zip rs).filter fun q => (all || !hidden q.1.1) && (q.2.1 || !isNone q.2.2)

theorem seen_kvs {env : Env} {a r keep : Bool} (all : Bool) {kvs : List (String × EV)} {rs : List (Bool × PV)}
    (hl : kvs.length = rs.length) (h : ∀ q ∈ kvs.zip rs, SeenAs env (answering a r) keep q.1.2 q.2.1 q.2.2) :
    ∃ ws, marshalKvs (answering a r) kvs = .ok ws ∧ ws.map (·.1) = kvs.map (·.1) ∧
      collect all (desKvs env keep ws) = .ok ((seenOf all kvs rs).map fun q => (q.1.1, marked q.2.1 q.2.2)) ∧
      ∀ q ∈ seenOf all kvs rs, isRpcSecret q.2.2 = false := by
  induction kvs generalizing rs with
  | nil => exact ⟨[], rfl, rfl, rfl, by simp [seenOf]⟩
  | cons kv kvs ih =>
    obtain ⟨k, e⟩ := kv
    cases rs with
    | nil => simp at hl
    | cons q rs =>
      obtain ⟨b, v⟩ := q
      simp only [List.length_cons, Nat.add_right_cancel_iff] at hl
      obtain ⟨w, h1, h2, h3⟩ := h ((k, e), (b, v)) (by rw [List.zip_cons_cons]; exact List.mem_cons_self ..)
      obtain ⟨ws, x1, x2, x3, x4⟩ :=
        ih hl (fun q hq => h q (by rw [List.zip_cons_cons]; exact List.mem_cons_of_mem _ hq))
      simp only at h1 h2 h3
      refine ⟨(k, w) :: ws, ?_, by simp [x2], ?_, ?_⟩
      · simp only [marshalKvs, skips_answering, Bool.false_eq_true, if_false, h1, x1, bind, Except.bind]; rfl
      · simp only [desKvs, collect, h2, x3, none_marked, seenOf, List.zip_cons_cons, List.filter_cons, hidden_eq k,
          Bool.and_assoc]
        cases all <;> cases (Wire.isInternal k && k != "__provider") <;> cases b <;> cases isNone v <;> simp [Except.map]
      · intro q hq
        unfold seenOf at hq
        rw [List.zip_cons_cons, List.filter_cons] at hq
        split at hq
        · rcases List.mem_cons.1 hq with rfl | hq
          · exact h3
          · exact x4 q hq
        · exact x4 q hq

theorem seen_secret {env : Env} {r keep : Bool} {e : EV} {b : Bool} {v : PV} (h : SeenAs env (answering true r) false e b v) :
    SeenAs env (answering true r) keep (.secret e) true v := by
  obtain ⟨w, h1, h2, h3⟩ := h
  refine ⟨.struct [(sigKey, .str secretSig), ("value", w)], ?_, ?_, h3⟩
  · simp only [marshal, marshalSecret, h1]
    rfl
  · have g1 : ([(sigKey, .str secretSig), ("value", w)] : List (String × W)).lookup Wire.sigKey = some (.str secretSig) := rfl
    have g2 : secretSig ≠ Wire.assetSig := by decide
    have g3 : secretSig ≠ Wire.archiveSig := by decide
    have g4 : secretSig = Wire.secretSig := rfl
    have g5 : Wire.Decoded.get (desKvs env false [(sigKey, .str secretSig), ("value", w)]) "value" = .ok (marked b v) := by
      simp only [Wire.Decoded.get, Wire.desKvs_lookup]
      rw [lookup_cons_ne (by decide), List.lookup_cons_self]
      simp [h2]
    simp only [des, desStruct, g1, if_neg g2, if_neg g3, if_pos g4, g5, Except.map, wrap_marked h3, bubble_secret h3]
    rfl

theorem seen_computed (env : Env) (a r keep : Bool) (s : String) :
    SeenAs env (answering a r) keep (.computed (.str s)) false (pending env keep) :=
  ⟨.str unknownString, rfl, by rw [des, desStr_unknown]; rfl, pending_not_secret env keep⟩

/-- The fields of a reference after its signature. -/
def refFields (urn : String) (id : RefId) (version : String) : List (String × W) :=
  [("urn", .str urn)]
    ++ (match id with
      | .none => []
      | .known s => [("id", .str s)]
      | .unknown => [("id", .str "")])
    ++ (if version = "" then [] else [("packageVersion", .str version)])

theorem rebuild_ref {env : Env} {urn version : String} {id : RefId} {c : Option ResId} (h : Builds env urn version c) :
    Wire.rebuild env ((sigKey, .str resourceSig) :: refFields urn id version) = .ok (urn, c) := by
  obtain ⟨parts, hp, rfl⟩ := h
  have h1 : ((sigKey, W.str resourceSig) :: refFields urn id version).lookup "urn" = some (.str urn) := by
    rw [lookup_cons_ne (by decide)]; rfl
  have h2 : ((sigKey, W.str resourceSig) :: refFields urn id version).lookup "packageVersion" =
      if version = "" then none else some (.str version) := by
    rw [lookup_cons_ne (by decide)]
    unfold refFields
    by_cases hv : version = ""
    · subst hv
      cases id <;> rfl
    · rw [if_neg hv, if_neg hv]
      cases id <;> rfl
  simp only [Wire.rebuild, h1, h2, hp]
  by_cases hv : version = ""
  · subst hv
    rfl
  · rw [if_neg hv]

theorem seen_ref {env : Env} {a : Bool} {keep : Bool} {urn version : String} {id : RefId} {v : PV}
    (h : Wire.desResource env keep ((sigKey, .str resourceSig) :: refFields urn id version)
      (desKvs env keep ((sigKey, .str resourceSig) :: refFields urn id version)) = .ok v)
    (hv : ∀ l, v ≠ .dict l) : SeenAs env (answering a true) keep (.ref urn id version) false v := by
  refine ⟨.struct ((sigKey, .str resourceSig) :: refFields urn id version), ?_, ?_, ?_⟩
  · cases id <;> simp [marshal, marshalRef, answering, refFields]
  · have g1 : ((sigKey, W.str resourceSig) :: refFields urn id version).lookup Wire.sigKey = some (.str resourceSig) :=
      List.lookup_cons_self
    have g2 : resourceSig ≠ Wire.assetSig := by decide
    have g3 : resourceSig ≠ Wire.archiveSig := by decide
    have g4 : resourceSig ≠ Wire.secretSig := by decide
    have g5 : resourceSig = Wire.resourceSig := rfl
    simp only [des, desStruct, g1, if_neg g2, if_neg g3, if_neg g4, if_pos g5, h, Except.map]
    rw [Wire.bubbleDict_bubbled_nondict hv]
    rfl
  · cases v <;> first | rfl | exact absurd rfl (hv _)

theorem seen_output {env : Env} {a r keep : Bool} {e : EV} {s : Bool} {deps : List String} {b : Bool} {v : PV}
    (h : SeenAs env (answering a r) keep (if s then .secret e else e) b v) :
    SeenAs env (answering a r) keep (.output e true s deps) b v := by
  obtain ⟨w, h1, h2, h3⟩ := h
  refine ⟨w, ?_, h2, h3⟩
  cases s with
  | false =>
    simp only [Bool.false_eq_true, if_false] at h1
    rw [marshal]
    exact h1
  | true =>
    simp only [if_true, marshal] at h1
    rw [marshal]
    exact h1

theorem seen_unknownOutput {env : Env} {a r keep : Bool} {e : EV} {s : Bool} {deps : List String} {b : Bool} {v : PV}
    (h : SeenAs env (answering a r) keep (if s then .secret (.computed (.str "")) else .computed (.str "")) b v) :
    SeenAs env (answering a r) keep (.output e false s deps) b v := by
  obtain ⟨w, h1, h2, h3⟩ := h
  refine ⟨w, ?_, h2, h3⟩
  cases s with
  | false =>
    simp only [Bool.false_eq_true, if_false, marshal] at h1
    rw [marshal]
    exact h1
  | true =>
    simp only [if_true, marshal] at h1
    rw [marshal]
    exact h1

theorem seen {env : Env} {a r keep : Bool} {e : EV} {b : Bool} {v : PV} (h : Shown env a r keep e b v) :
    SeenAs env (answering a r) keep e b v := by
  induction h with
  | null => exact ⟨.null, rfl, rfl, rfl⟩
  | bool b => exact ⟨.bool b, rfl, rfl, rfl⟩
  | num n => exact ⟨.num n, rfl, rfl, rfl⟩
  | @str keep s hs =>
    refine ⟨.str s, rfl, ?_, rfl⟩
    rw [des, Wire.desStr_keep hs]; rfl
  | computed => exact seen_computed ..
  | secret ha _ ih =>
    subst ha
    exact seen_secret ih
  | revealed ha _ ih =>
    subst ha
    obtain ⟨w, h1, h2, h3⟩ := ih
    exact ⟨w, by rw [marshal]; exact h1, h2, h3⟩
  | @array keep es rs hl _ ih =>
    obtain ⟨ws, h1, h2, h3⟩ := seen_list hl ih
    refine ⟨.list ws, by simp [marshal, h1, Except.map], ?_, rfl⟩
    rw [des, h2]
    simp only [Except.map, Wire.bubbleList_eq, List.any_map, List.map_map]
    have e1 : (rs.any (isRpcSecret ∘ fun q => marked q.1 q.2)) = rs.any (·.1) := by
      rw [Bool.eq_iff_iff]
      simp only [List.any_eq_true, Function.comp]
      constructor
      · rintro ⟨q, hq, hs⟩; exact ⟨q, hq, by rwa [secret_marked (h3 q hq)] at hs⟩
      · rintro ⟨q, hq, hs⟩; exact ⟨q, hq, by rwa [secret_marked (h3 q hq)]⟩
    have e2 : rs.map (unwrapSecret ∘ fun q => marked q.1 q.2) = rs.map (·.2) :=
      List.map_congr_left fun q hq => unwrap_marked (h3 q hq)
    rw [e1, e2]
    rfl
  | @object keep kvs rs sn hl hk _ hsn ih =>
    obtain ⟨ws, h1, h2, h3, h4⟩ := seen_kvs false hl ih
    have hsn : sn = seenOf false kvs rs := by rw [hsn]; simp [seenOf]
    subst hsn
    have hs : ws.lookup Wire.sigKey = none := by
      apply Wire.lookup_none
      rw [h2]
      intro hm
      obtain ⟨m, hm, he⟩ := List.mem_map.1 hm
      exact hk m hm he
    have hmem : ∀ q ∈ seenOf false kvs rs, q.1 ∈ kvs := fun q hq => (List.of_mem_zip (List.mem_filter.1 hq).1).1
    refine ⟨.struct ws, by simp [marshal, h1, Except.map], ?_, ?_⟩
    · simp only [des, desStruct, hs, h3, Except.map]
      rw [Wire.bubbleDict_eq]
      · simp only [List.any_map, Wire.unwrapKvs, List.map_map]
        have e1 : ((seenOf false kvs rs).any ((fun kv => isRpcSecret kv.2) ∘ fun q => (q.1.1, marked q.2.1 q.2.2))) =
            (seenOf false kvs rs).any fun q => q.2.1 := by
          rw [Bool.eq_iff_iff]
          simp only [List.any_eq_true, Function.comp]
          constructor
          · rintro ⟨q, hq, hs⟩; exact ⟨q, hq, by rwa [secret_marked (h4 q hq)] at hs⟩
          · rintro ⟨q, hq, hs⟩; exact ⟨q, hq, by rwa [secret_marked (h4 q hq)]⟩
        have e2 : (seenOf false kvs rs).map ((fun kv => (kv.1, unwrapSecret kv.2)) ∘ fun q => (q.1.1, marked q.2.1 q.2.2)) =
            (seenOf false kvs rs).map fun q => (q.1.1, q.2.2) :=
          List.map_congr_left fun q hq => by simp [unwrap_marked (h4 q hq)]
        rw [e1, e2]
        rfl
      · intro kv hkv
        obtain ⟨q, hq, rfl⟩ := List.mem_map.1 hkv
        exact hk q.1 (hmem q hq)
    · simp only [isRpcSecret]
      rw [Wire.lookup_none]
      intro hm
      simp only [List.map_map, List.mem_map, Function.comp] at hm
      obtain ⟨q, hq, he⟩ := hm
      exact hk q.1 (hmem q hq) he
  | output _ ih => exact seen_output ih
  | unknownOutput _ ih => exact seen_unknownOutput ih
  | resource hr hb =>
    subst hr
    refine seen_ref ?_ (by simp)
    simp only [Wire.desResource, rebuild_ref hb]
  | @component keep urn version hb hu =>
    cases r with
    | false =>
      refine ⟨.str urn, rfl, ?_, rfl⟩
      rw [des, Wire.desStr_keep (hu rfl)]; rfl
    | true =>
      refine seen_ref ?_ (by simp)
      have h1 : ((sigKey, W.str resourceSig) :: refFields urn .none version).lookup "id" = none := by
        rw [lookup_cons_ne (by decide)]
        unfold refFields
        by_cases hv : version = ""
        · subst hv; rfl
        · rw [if_neg hv]; rfl
      simp only [Wire.desResource, rebuild_ref (hb rfl), h1]
  | @custom keep urn s version hb hs0 hsu =>
    cases r with
    | false =>
      refine ⟨.str s, rfl, ?_, rfl⟩
      rw [des, Wire.desStr_keep hsu]; rfl
    | true =>
      refine seen_ref ?_ (by simp)
      have h1 : ((sigKey, W.str resourceSig) :: refFields urn (.known s) version).lookup "id" = some (.str s) := by
        rw [lookup_cons_ne (by decide)]
        rfl
      simp only [Wire.desResource, rebuild_ref (hb rfl), h1]
      split
      · rename_i h; cases h; exact absurd rfl hs0
      · rename_i h
        simp only [Wire.Decoded.get, Wire.desKvs_lookup, h1, Option.map, des]
        rw [Wire.desStr_keep hsu]
      · rename_i h; cases h
  | @pending keep urn version hb =>
    cases r with
    | false => exact ⟨.str unknownString, rfl, by rw [des, desStr_unknown]; rfl, pending_not_secret env keep⟩
    | true =>
      refine seen_ref ?_ (pending_not_dict env keep)
      have h1 : ((sigKey, W.str resourceSig) :: refFields urn .unknown version).lookup "id" = some (.str "") := by
        rw [lookup_cons_ne (by decide)]
        rfl
      simp only [Wire.desResource, rebuild_ref (hb rfl), h1]
      rw [← desStr_unknown]
      rfl
  | blob hb =>
    obtain ⟨h1, h2, h3, h4⟩ := shown_blob (env := env) (a := a) (r := r) hb
    exact ⟨_, rfl, h1 _, h3⟩

end Pulumi.Engine
