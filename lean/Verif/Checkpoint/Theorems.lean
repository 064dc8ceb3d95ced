import Verif.Checkpoint.Bulk
import Verif.Checkpoint.Json
/-! # What a state file keeps of property values, and what it tells of secrets (C178-C181) -/
namespace Pulumi.Checkpoint

open Wire (W)
open Engine (EV Blob RefId)

/-! ## Values come back (C178) -/

/-- **C178.** A property value is written to a state file, encrypted or, if the secrets are to be shown, not, by any encrypter
whose ciphertexts the decrypter opens. Reading the file gives the value, but that for unknown values and Outputs it only
gives that they are unknown. It gives nothing else. -/
theorem values_come_back_partial {J : Codec} (hJ : J.Faithful) (showSecrets : Bool) {σ : Type} (I : σ → Prop) (enc : Encrypter σ)
    (dec enc' : Decrypter) (ho : Opens J I enc dec) (henc : showSecrets = true → ∀ p, ∃ x, enc' p = .ok x) (v : EV)
    (hv : Storable v) (s : σ) (hI : I s) (w : W) (s' : σ) (hw : serialize J showSecrets enc v s = .ok (w, s')) (v' : EV) :
    Loads J dec enc' w v' ↔ v' = kept v := by
  obtain ⟨_, n, hn⟩ := value_read hJ showSecrets hv I enc dec enc' ho henc s w s' hI hw
  constructor
  · rintro ⟨m, hm⟩
    have h1 := deserialize_mono (Nat.le_max_left m n) hm
    rw [hn _ (Nat.le_max_right m n)] at h1
    cases h1
    rfl
  · rintro rfl
    exact ⟨n, hn n (Nat.le_refl n)⟩

mutual
/-- **C178.** A value in which nothing is unknown is kept as it is. -/
theorem kept_known (v : EV) (h : hasUnknown v = false) : kept v = v := by
  cases v <;> simp only [kept, hasUnknown] at h ⊢
  case array es => rw [keptList_known es h]
  case object kvs => rw [keptProps_known kvs h]
  case secret e => rw [kept_known e h]
  all_goals cases h
theorem keptList_known (es : List EV) (h : listHasUnknown es = false) : keptList es = es := by
  match es with
  | [] => rfl
  | e :: es =>
    simp only [listHasUnknown, Bool.or_eq_false_iff] at h
    rw [keptList, kept_known e h.1, keptList_known es h.2]
theorem keptProps_known (kvs : List (String × EV)) (h : propsHaveUnknown kvs = false) : keptProps kvs = kvs := by
  match kvs with
  | [] => rfl
  | (k, e) :: kvs =>
    simp only [propsHaveUnknown, Bool.or_eq_false_iff] at h
    rw [keptProps, kept_known e h.1, keptProps_known kvs h.2]
end

/-- **C178.** Writing fails only if the encrypter does. -/
theorem values_are_written (J : Codec) (showSecrets : Bool) {σ : Type} (enc : Encrypter σ)
    (h : ∀ p s, ∃ c s', enc p s = .ok (c, s')) (v : EV) (s : σ) : ∃ w s', serialize J showSecrets enc v s = .ok (w, s') := by
  suffices H : ∀ n, (∀ v : EV, sizeOf v < n → ∀ s, ∃ w s', serialize J showSecrets enc v s = .ok (w, s')) ∧
      (∀ es : List EV, sizeOf es < n → ∀ s, ∃ ws s', serializeList J showSecrets enc es s = .ok (ws, s')) ∧
      (∀ kvs : List (String × EV), sizeOf kvs < n → ∀ s, ∃ ws s', serializeKvs J showSecrets enc kvs s = .ok (ws, s')) from
    (H (sizeOf v + 1)).1 v (Nat.lt_succ_self _) s
  intro n
  induction n with
  | zero => exact ⟨fun _ h => absurd h (Nat.not_lt_zero _), fun _ h => absurd h (Nat.not_lt_zero _), fun _ h => absurd h (Nat.not_lt_zero _)⟩
  | succ n ih =>
    refine ⟨fun v hv s => ?_, fun es hes s => ?_, fun kvs hkvs s => ?_⟩
    · cases v
      case array es =>
        simp at hv
        obtain ⟨ws, s', e⟩ := ih.2.1 es (by omega) s
        exact ⟨.list ws, s', by rw [serialize, e]; rfl⟩
      case object kvs =>
        simp at hv
        obtain ⟨ws, s', e⟩ := ih.2.2 kvs (by omega) s
        exact ⟨.struct ws, s', by rw [serialize, e]; rfl⟩
      case secret e =>
        obtain ⟨c, s', e'⟩ := h (J.print (plain J showSecrets e)) s
        exact ⟨_, s', by rw [serialize, serialize_nop]; simp only [bind, Except.bind, e']; rfl⟩
      all_goals exact ⟨_, _, rfl⟩
    · cases es with
      | nil => exact ⟨_, _, rfl⟩
      | cons e es =>
        simp at hes
        obtain ⟨w, s1, e1⟩ := ih.1 e (by omega) s
        obtain ⟨ws, s2, e2⟩ := ih.2.1 es (by omega) s1
        exact ⟨w :: ws, s2, by rw [serializeList, e1]; simp only [bind, Except.bind, e2]; rfl⟩
    · match kvs with
      | [] => exact ⟨_, _, rfl⟩
      | (k, e) :: kvs =>
        simp at hkvs
        obtain ⟨w, s1, e1⟩ := ih.1 e (by omega) s
        obtain ⟨ws, s2, e2⟩ := ih.2.2 kvs (by omega) s1
        exact ⟨(k, w) :: ws, s2, by rw [serializeKvs, e1]; simp only [bind, Except.bind, e2]; rfl⟩

/-- An encrypter that counts, so that no two ciphertexts are the same, and the decrypter for it. -/
def counting : Encrypter Nat := fun p n => .ok (String.ofList (List.replicate n '.' ++ ':' :: p.toList), n + 1)

def countingDec : Decrypter := fun c => .ok (String.ofList ((c.toList.dropWhile (· == '.')).tail))

theorem counting_opens (J : Codec) : Opens J (fun _ => True) counting countingDec := by
  intro w n c n' _ h
  cases h
  have hl : (String.ofList (List.replicate n '.' ++ ':' :: (J.print w).toList)).toList =
      List.replicate n '.' ++ ':' :: (J.print w).toList := String.toList_ofList
  have hd : (List.replicate n '.' ++ ':' :: (J.print w).toList).dropWhile (· == '.') = ':' :: (J.print w).toList := by
    induction n with
    | zero => rfl
    | succ n ih => rw [List.replicate_succ, List.cons_append, List.dropWhile_cons]; exact ih String.toList_ofList
  refine ⟨?_, ?_, ?_, trivial⟩
  · unfold countingDec
    rw [hl, hd]
    exact congrArg Except.ok String.ofList_toList
  · intro e
    rw [e] at hl
    cases n <;> cases hl
  · intro e
    rw [e] at hl
    cases n <;> exact absurd (List.cons.inj hl).1 (by decide)

/-- A value with everything in it. -/
def sample : EV :=
  .object [("name", .str "db"), ("ports", .array [.num 1, .null, .bool true]),
    ("password", .secret (.object [("inner", .secret (.str "hunter2"))])),
    ("files", .blob (.assets "" [("a.txt", .asset "" "hello" "" ""), ("b", .archive "x" "./b" "")] "" "")),
    ("vpc", .ref "urn:vpc" (.known "vpc-1") "1.0"), ("comp", .ref "urn:comp" .none ""), ("later", .computed (.str "")),
    ("out", .output (.num 7) true false [])]

theorem sample_storable : Storable sample := by
  refine .object (by decide) fun kv hkv => ?_
  simp only [List.mem_cons, List.not_mem_nil, or_false] at hkv
  rcases hkv with rfl | rfl | rfl | rfl | rfl | rfl | rfl | rfl
  · exact .str (by decide)
  · refine .array fun e he => ?_
    simp only [List.mem_cons, List.not_mem_nil, or_false] at he
    rcases he with rfl | rfl | rfl <;> constructor
  · refine .secret (.object (by decide) fun kv hkv => ?_)
    simp only [List.mem_cons, List.not_mem_nil, or_false] at hkv
    subst hkv
    exact .secret (.str (by decide))
  · refine .blob (.assets (by decide) (by decide) (by decide) (by decide) fun m hm => ?_)
    simp only [List.mem_cons, List.not_mem_nil, or_false] at hm
    rcases hm with rfl | rfl
    · exact .asset (by decide) (by decide) (by decide) (by decide)
    · exact .archive (by decide) (by decide) (by decide)
  · exact .ref (by decide) (by decide) fun s h => by cases h; exact ⟨by decide, by decide⟩
  · exact .ref (by decide) (by decide) fun s h => (by cases h)
  · exact .computed _
  · exact .output _ _ _ _

example : ∃ w s', serialize jsonCodec false counting sample 0 = .ok (w, s') ∧
    (∀ v', Loads jsonCodec countingDec (fun p => .ok p) w v' ↔ v' = kept sample) := by
  obtain ⟨w, s', h⟩ := values_are_written jsonCodec false counting (fun p s => ⟨_, _, rfl⟩) sample 0
  exact ⟨w, s', h, values_come_back_partial json_faithful false _ counting countingDec _ (counting_opens jsonCodec)
    (fun h => by cases h) sample sample_storable 0 trivial w s' h⟩

/-- The full statement: every property value comes back as it is. -/
def EveryValueComesBack (J : Codec) : Prop :=
  ∀ (v : EV) (w : W), serialize J false (nopEncrypter (σ := Unit)) v () = .ok (w, ()) →
    Loads J nopDecrypter nopDecrypter w v

theorem loads_unique {J : Codec} {dec enc : Decrypter} {w : W} {v v' : EV} (h : Loads J dec enc w v)
    (h' : Loads J dec enc w v') : v = v' := by
  obtain ⟨n, hn⟩ := h
  obtain ⟨m, hm⟩ := h'
  have h1 := deserialize_mono (Nat.le_max_left n m) hn
  rw [deserialize_mono (Nat.le_max_right n m) hm] at h1
  cases h1
  rfl

/-- **C178, finding.** It does not hold for every value: the value of an Output is lost even when it is known, a string that is the
placeholder becomes an unknown value, and an object that has the reserved name cannot be read any more. -/
theorem not_every_value_comes_back (J : Codec) : ¬ EveryValueComesBack J := by
  intro h
  have h1 := h (.str placeholder) _ rfl
  have h2 : Loads J nopDecrypter nopDecrypter (.str placeholder) (.computed (.str "")) := ⟨1, rfl⟩
  cases loads_unique h1 h2

theorem known_outputs_are_lost (J : Codec) (v : EV) (s : Bool) (deps : List String) (w : W)
    (h : serialize J false (nopEncrypter (σ := Unit)) (.output v true s deps) () = .ok (w, ())) :
    Loads J nopDecrypter nopDecrypter w (.computed (.str "")) := by
  cases h
  exact ⟨1, rfl⟩

theorem reserved_names_make_files_unreadable (J : Codec) (t : String) (ht : t ∉ [Engine.assetSig, Engine.archiveSig,
    Engine.secretSig, Engine.resourceSig]) (w : W)
    (h : serialize J false (nopEncrypter (σ := Unit)) (.object [(reservedName, .str t)]) () = .ok (w, ())) (dec enc : Decrypter)
    (v : EV) : ¬ Loads J dec enc w v := by
  cases h
  rintro ⟨n, hn⟩
  simp only [List.mem_cons, List.not_mem_nil, or_false, not_or] at ht
  match n, hn with
  | 1, hn => cases hn
  | n + 2, hn =>
    have hs : reservedName = Engine.sigKey := rfl
    by_cases hp : t = placeholder
    · have : eachProp (deserialize J (n + 1) dec enc) [(reservedName, .str t)] = .ok [(reservedName, .computed (.str ""))] :=
        eachProp_one (by simp [deserialize, hp])
      rw [deserialize_struct this] at hn
      simp [recover, List.lookup, hs] at hn
    · rw [deserialize_struct (eachProp_one (deserialize_str J n dec enc hp))] at hn
      simp [recover, List.lookup, hs, ht.1, ht.2.1, ht.2.2.1, ht.2.2.2] at hn

/-! ## Secrets are not told (C179) -/

/-- **C179.** A state file that does not show secrets has nothing of them but what the encrypter gives: two values that are the
same but for what is in their secrets are written alike by an encrypter that tells nothing of the texts. -/
theorem secrets_are_not_told (J : Codec) {σ : Type} (enc : Encrypter σ) (ht : Tight enc) (v v' : EV) (h : SamePublic v v')
    (s : σ) : serialize J false enc v s = serialize J false enc v' s := by
  obtain ⟨h1, h2⟩ := samePublic_fill J h
  rw [serialize_eq, serialize_eq, encAll_tight ht (qs := (secretsOf v').map (textOf J false)) (by simpa using h1)]
  cases encAll enc ((secretsOf v').map (textOf J false)) s with
  | error e => rfl
  | ok r => simp only [Except.map, h2]

/-- **C179.** With any encrypter: what is encrypted are the texts of the secrets that are in no other secret, each of them once,
in order, and nothing else; and the file depends on what is in the secrets through their ciphertexts alone. -/
theorem each_secret_is_encrypted_once (J : Codec) {σ : Type} (enc : Encrypter σ) (v : EV) (s : σ) (w : W) (s' : σ) :
    serialize J false enc v s = .ok (w, s') ↔
      ∃ ps cs : List String, ps.length = (secretsOf v).length ∧ (∀ (i : Nat) e p, (secretsOf v)[i]? = some e → ps[i]? = some p → IsText J false e p) ∧
        Encrypts enc ps s cs s' ∧ (fill J v cs).1 = w := by
  rw [serialize_eq]
  constructor
  · intro h
    cases h1 : encAll enc ((secretsOf v).map (textOf J false)) s with
    | error e => rw [h1] at h; cases h
    | ok r =>
      rw [h1] at h
      cases h
      refine ⟨(secretsOf v).map (textOf J false), r.1, by simp, fun i e p he hp => ?_, (encrypts_iff ..).2 h1, rfl⟩
      rw [List.getElem?_map, he] at hp
      cases hp
      exact (isText_iff ..).2 rfl
  · rintro ⟨ps, cs, hl, ht, he, rfl⟩
    have : ps = (secretsOf v).map (textOf J false) := by
      apply List.ext_getElem?
      intro i
      rw [List.getElem?_map]
      cases hi : (secretsOf v)[i]? with
      | none =>
        rw [List.getElem?_eq_none_iff] at hi
        simp [List.getElem?_eq_none_iff.2 (hl ▸ hi)]
      | some e =>
        cases hp : ps[i]? with
        | none =>
          rw [List.getElem?_eq_none_iff, hl] at hp
          rw [List.getElem?_eq_none_iff.2 hp] at hi
          cases hi
        | some p => rw [(isText_iff ..).1 (ht i e p hi hp)]; rfl
    subst this
    rw [(encrypts_iff ..).1 he]
    rfl

/-- **C179.** What a file says in the place of a secret, and how many ciphertexts it takes, is the same for values that are the
same but for what is in their secrets. -/
theorem the_rest_is_public (J : Codec) (v v' : EV) (h : SamePublic v v') (cs : List String) :
    fill J v cs = fill J v' cs ∧ (secretsOf v).length = (secretsOf v').length :=
  ⟨(samePublic_fill J h).2 cs, (samePublic_fill J h).1⟩

/-- `BlindingCrypter` (crypt.go:104-126) is such an encrypter. -/
def blinding : Encrypter Unit := fun _ s => .ok ("[secret]", s)

example : Tight blinding ∧ SamePublic (.array [.str "a", .secret (.str "x")]) (.array [.str "a", .secret (.num 5)]) ∧
    ∃ w s, serialize jsonCodec false blinding (.array [.str "a", .secret (.str "x")]) () = .ok (w, s) :=
  ⟨fun _ _ _ => rfl, .cons (.refl _) (.cons (.secret _ _) .nil), _, _, rfl⟩

/-- If the secrets are to be shown they are shown: the theorem needs that they are not. -/
theorem shown_secrets_are_told (J : Codec) (hJ : J.Faithful) :
    ∃ v v', SamePublic v v' ∧ serialize J true blinding v () ≠ serialize J true blinding v' () := by
  refine ⟨.secret (.str "a"), .secret (.str "b"), .secret _ _, fun h => ?_⟩
  simp only [serialize, bind, Except.bind, blinding, pure, Except.pure, Except.ok.injEq, Prod.mk.injEq, and_true, secretW,
    if_true, W.struct.injEq, List.cons.injEq, true_and, Engine.textField, if_neg (hJ _).2.1] at h
  have h1 := (hJ (.str "a")).1
  rw [W.str.inj h, (hJ _).1] at h1
  simp at h1

/-! ## Decrypting all at once (C180) -/

/-- **C180.** The ciphertexts of a state file are collected and decrypted all at once. Reading it with what that gives is reading
it with the decrypter, whatever the file is. -/
theorem reading_after_bulk_decryption_is_reading (J : Codec) (n : Nat) (dec enc : Decrypter) (cs : List String)
    (cache : List (String × String)) (h : bulkDecrypt dec cs = .ok cache) (w : W) :
    deserialize J n (mapDecrypter cache dec) enc w = deserialize J n dec enc w := by
  have : mapDecrypter cache dec = dec := by
    funext c
    unfold mapDecrypter
    cases hl : cache.lookup c with
    | none => rfl
    | some p => exact ((bulk_lookup h c).1 p hl).symm
  rw [this]

/-- **C180.** For a file that was written this is enough: the decrypter is not asked again, so that it does not matter what
it would say. -/
theorem bulk_decryption_is_enough (J : Codec) (showSecrets : Bool) {σ : Type} (writer : Encrypter σ) (v : EV) (hv : Storable v)
    (s s' : σ) (w : W) (hw : serialize J showSecrets writer v s = .ok (w, s')) (n : Nat) (dec other enc : Decrypter)
    (cache : List (String × String)) (h : bulkDecrypt dec (collect w) = .ok cache) :
    deserialize J n (mapDecrypter cache other) enc w = deserialize J n dec enc w := by
  refine deserialize_asks J (flat_serialize hv hw) n _ _ enc fun c hc => ?_
  obtain ⟨h1, h2⟩ := bulk_lookup h c
  obtain ⟨p, hp⟩ := h2 hc
  unfold mapDecrypter
  rw [hp, h1 p hp]

set_option maxRecDepth 100000 in
example : ∃ w s', serialize jsonCodec false counting sample 0 = .ok (w, s') ∧ ∃ cache,
    bulkDecrypt countingDec (collect w) = .ok cache ∧ cache.length = 1 := by
  refine ⟨_, _, rfl, _, rfl, rfl⟩

/-- A secret beside the ciphertext of a secret. -/
def oddSecret : W :=
  .struct [("4dabf18193072939515e22adb298388d", .str "1b47061264138c4ac30d75fd1eb44270"), ("ciphertext", .str "a"),
    ("more", .struct [("4dabf18193072939515e22adb298388d", .str "1b47061264138c4ac30d75fd1eb44270"), ("ciphertext", .str "b")])]

/-- Another file may need the decrypter again. -/
theorem not_every_file_is_decrypted_at_once (J : Codec) : ¬ Flat oddSecret ∧ ∃ n dec other enc cache,
    bulkDecrypt dec (collect oddSecret) = .ok cache ∧
      deserialize J n (mapDecrypter cache other) enc oddSecret ≠ deserialize J n dec enc oddSecret := by
  have hw : ∀ o : Err, deserialize J 3 (mapDecrypter [("a", "x")] fun _ => .error o) nopDecrypter oddSecret = .error o := by
    intro o
    rfl
  refine ⟨?_, 3, mapDecrypter [("a", "x")] fun _ => .error .json, fun _ => .error .panic, nopDecrypter, [("a", "x")], rfl, ?_⟩
  · intro h
    cases h with
    | leaf _ h => exact h _ rfl
    | struct _ h => exact (h rfl _ (List.mem_cons_of_mem _ (List.mem_cons_of_mem _ (List.mem_cons_self ..)))).2 _ rfl
  · rw [hw .panic, hw .json]
    intro h
    cases h

/-! ## Encrypting no secret twice (C181) -/

/-- **C181.** An encrypter that keeps the ciphertexts it has given is as good as the one in it: its ciphertexts open, too, whatever
was encrypted before, at whichever address. With C178, what is written comes back. -/
theorem cached_ciphertexts_open {σ : Type} {J : Codec} (I : σ → Prop) (enc : Encrypter σ) (dec : Decrypter)
    (ho : Opens J I enc dec) (address : Nat → Nat) : Opens J (GoodCache I dec) (caching address enc) dec :=
  opens_caching ho address

theorem encrypts_reset {σ : Type} {J : Codec} {address : Nat → Nat} {enc : Encrypter σ} {v : EV} {s : Cache σ} {w s'}
    (h : serialize J false (caching address enc) v s = .ok (w, s')) :
    ∃ cs, Encrypts (caching address enc) ((secretsOf v).map (textOf J false)) s cs s' ∧ w = (fill J v cs).1 := by
  rw [serialize_eq] at h
  cases h1 : encAll (caching address enc) ((secretsOf v).map (textOf J false)) s with
  | error e => rw [h1] at h; cases h
  | ok r =>
    rw [h1] at h
    cases h
    exact ⟨_, (encrypts_iff ..).2 h1, rfl⟩

/-- **C181.** A secret keeps its ciphertext from one state file to the next as long as it is the same: if text `j` of the second
file is of the secret at the address that text `i` of the first is of, and they are the same, the ciphertexts are. -/
theorem unchanged_secrets_keep_their_ciphertexts {σ : Type} (enc : Encrypter σ) (address address' : Nat → Nat)
    (ps ps' cs cs' : List String) (s s1 s2 : Cache σ) (h0 : s.next = 0) (h : Encrypts (caching address enc) ps s cs s1)
    (h' : Encrypts (caching address' enc) ps' { s1 with next := 0 } cs' s2) (ha : SameAddressSameText address ps)
    (ha' : SameAddressSameText address' ps') (i j : Nat) (hij : address i = address' j) (p c c' : String)
    (hpi : ps[i]? = some p) (hpj : ps'[j]? = some p) (hci : cs[i]? = some c) (hcj : cs'[j]? = some c') : c' = c := by
  have h1 := caching_has h (fun a b p q hp hq hab => ha a b p q hp hq (by simpa [h0] using hab)) i p c hpi hci
  rw [h0, Nat.zero_add, hij] at h1
  exact (caching_keeps h' h1 fun k q hq hk => ha' k j q p hq hpj (by simpa using hk)).2 j c' hcj (by simp)

/-- **C181.** Writing a value again, with the same secrets, gives the same file, and the encrypter is not asked at all. -/
theorem writing_again_encrypts_nothing {σ : Type} (J : Codec) (enc : Encrypter σ) (address : Nat → Nat) (v : EV) (ps : List String)
    (hps : ps.length = (secretsOf v).length)
    (ht : ∀ (i : Nat) e p, (secretsOf v)[i]? = some e → ps[i]? = some p → IsText J false e p) (ha : SameAddressSameText address ps)
    (s s1 : Cache σ) (h0 : s.next = 0) (w : W) (h : serialize J false (caching address enc) v s = .ok (w, s1)) :
    serialize J false (caching address enc) v { s1 with next := 0 } = .ok (w, s1) := by
  have hp : ps = (secretsOf v).map (textOf J false) := by
    apply List.ext_getElem?
    intro i
    rw [List.getElem?_map]
    cases hi : (secretsOf v)[i]? with
    | none =>
      rw [List.getElem?_eq_none_iff] at hi
      simp [List.getElem?_eq_none_iff.2 (hps ▸ hi)]
    | some e =>
      cases hp : ps[i]? with
      | none =>
        rw [List.getElem?_eq_none_iff, hps] at hp
        rw [List.getElem?_eq_none_iff.2 hp] at hi
        cases hi
      | some p => rw [(isText_iff ..).1 (ht i e p hi hp)]; rfl
  subst hp
  obtain ⟨cs, he, rfl⟩ := encrypts_reset h
  have hlen := encAll_length ((encrypts_iff ..).1 he)
  have hnext : ∀ {ps cs} {a b : Cache σ}, Encrypts (caching address enc) ps a cs b → b.next = a.next + ps.length := by
    intro ps cs a b h
    induction h with
    | nil => rfl
    | cons h1 _ ih => rw [ih, (caching_next h1).1, List.length_cons]; omega
  have h2 := caching_hits (address := address) (enc := enc) (ps := (secretsOf v).map (textOf J false)) (cs := cs)
    { s1 with next := 0 } hlen fun i p c hp hc => by
      have := caching_has he (fun a b p q hp hq hab => ha a b p q hp hq (by simpa [h0] using hab)) i p c hp hc
      simpa [h0] using this
  rw [serialize_eq, (encrypts_iff ..).1 h2]
  have := hnext he
  rw [h0] at this
  simp only [Except.map, ← this]

set_option maxRecDepth 100000 in
example : ∃ w s1, serialize jsonCodec false (caching id counting) sample ⟨[], 0, 0⟩ = .ok (w, s1) ∧ s1.inner = 1 ∧
    serialize jsonCodec false (caching id counting) sample { s1 with next := 0 } = .ok (w, s1) :=
  ⟨_, _, rfl, rfl, rfl⟩

end Pulumi.Checkpoint
