import Verif.Checkpoint.Spec
import Verif.Engine.Echo
/-! # Lemmas: what is read is what was written -/
namespace Pulumi.Checkpoint

open Wire (W)
open Engine (EV Blob RefId sigKey assetSig archiveSig secretSig resourceSig textField txt lookup_append lookup_txt
  lookup_one)

theorem eachProp_one {f : W → Except Err EV} {k : String} {w : W} {e : EV} (h : f w = .ok e) :
    eachProp f [(k, w)] = .ok [(k, e)] := by
  simp only [eachProp, h]
  rfl

theorem eachProp_cons {f : W → Except Err EV} {k : String} {w : W} {e : EV} {kvs es} (h : f w = .ok e)
    (h' : eachProp f kvs = .ok es) : eachProp f ((k, w) :: kvs) = .ok ((k, e) :: es) := by
  simp only [eachProp, h, h']
  rfl

theorem eachProp_app {f : W → Except Err EV} {a b : List (String × W)} {x y} (ha : eachProp f a = .ok x)
    (hb : eachProp f b = .ok y) : eachProp f (a ++ b) = .ok (x ++ y) := by
  induction a generalizing x with
  | nil =>
    cases ha
    exact hb
  | cons p a ih =>
    obtain ⟨k, w⟩ := p
    cases hf : f w with
    | error e => rw [eachProp, hf] at ha; cases ha
    | ok e =>
      cases hr : eachProp f a with
      | error e => rw [eachProp, hf, hr] at ha; cases ha
      | ok es =>
        rw [eachProp_cons hf hr] at ha
        cases ha
        exact eachProp_cons hf (ih hr)

theorem deserialize_str (J : Codec) (n : Nat) (dec enc : Decrypter) {s : String} (h : s ≠ reserved) :
    deserialize J (n + 1) dec enc (.str s) = .ok (.str s) := by
  have : s ≠ placeholder := h
  simp [deserialize, this]

theorem deserialize_struct {J : Codec} {n : Nat} {dec enc : Decrypter} {kvs obj}
    (h : eachProp (deserialize J n dec enc) kvs = .ok obj) :
    deserialize J (n + 1) dec enc (.struct kvs) = recover J dec enc (deserialize J n nopDecrypter enc) obj := by
  simp only [deserialize, h]
  rfl

theorem eachProp_text (J : Codec) (n : Nat) (dec enc : Decrypter) (k : String) {s : String} (h : s ≠ reserved) :
    eachProp (deserialize J (n + 1) dec enc) (textField k s) = .ok (txt k s) := by
  unfold textField txt
  by_cases hs : s = ""
  · rw [if_pos hs, if_pos hs]; rfl
  · rw [if_neg hs, if_neg hs]
    exact eachProp_one (deserialize_str J n dec enc h)

theorem eachProp_sig (J : Codec) (n : Nat) (dec enc : Decrypter) (k : String) {s : String} (h : s ≠ reserved) :
    eachProp (deserialize J (n + 1) dec enc) [(k, .str s)] = .ok [(k, .str s)] :=
  eachProp_one (deserialize_str J n dec enc h)

theorem lookup_none_of_ne {α : Type} {l : List (String × α)} {k : String} (h : ∀ kv ∈ l, kv.1 ≠ k) : l.lookup k = none := by
  induction l with
  | nil => rfl
  | cons p l ih =>
    obtain ⟨k', x⟩ := p
    have : (k == k') = false := by
      have := h (k', x) (List.mem_cons_self ..)
      simpa using fun e => this e.symm
    rw [List.lookup, this]
    exact ih fun kv hkv => h kv (List.mem_cons_of_mem _ hkv)

theorem recover_object (J : Codec) (dec enc : Decrypter) (read : W → Except Err EV) {obj : List (String × EV)}
    (h : ∀ kv ∈ obj, kv.1 ≠ reservedName) : recover J dec enc read obj = .ok (.object obj) := by
  have : obj.lookup sigKey = none := lookup_none_of_ne h
  simp only [recover, this]

theorem exists_bound {P : Nat → Prop} {Q : Nat → Prop} (h : ∃ n, ∀ m, n ≤ m → P m) (h' : ∃ n, ∀ m, n ≤ m → Q m) :
    ∃ n, ∀ m, n ≤ m → P m ∧ Q m := by
  obtain ⟨a, ha⟩ := h
  obtain ⟨b, hb⟩ := h'
  exact ⟨max a b, fun m hm => ⟨ha m (by omega), hb m (by omega)⟩⟩

/-- Assets and archives come back. -/
theorem blob_read (J : Codec) {b : Blob} (h : StorableBlob b) :
    ∃ n, ∀ m, n ≤ m → ∀ dec enc, deserialize J m dec enc (blobW b) = .ok (.blob b) := by
  induction h with
  | @asset h t p u h1 h2 h3 h4 =>
    refine ⟨2, fun m hm dec enc => ?_⟩
    obtain ⟨n, rfl⟩ : ∃ n, m = n + 1 + 1 := ⟨m - 2, by omega⟩
    have := eachProp_app (eachProp_app (eachProp_app (eachProp_app (eachProp_sig J n dec enc sigKey (s := assetSig) (by decide))
      (eachProp_text J n dec enc "hash" h1)) (eachProp_text J n dec enc "text" h2)) (eachProp_text J n dec enc "path" h3))
      (eachProp_text J n dec enc "uri" h4)
    rw [blobW, deserialize_struct this]
    have hr : ∀ l, l = [(sigKey, EV.str assetSig)] ++ txt "hash" h ++ txt "text" t ++ txt "path" p ++ txt "uri" u →
        recover J dec enc (deserialize J (n + 1) nopDecrypter enc) l = .ok (.blob (.asset h t p u)) := by
      intro l hl
      have l1 : l.lookup sigKey = some (.str assetSig) := by rw [hl]; rfl
      have l2 : ∀ k s, s = "" ∧ l.lookup k = none ∨ s ≠ "" ∧ l.lookup k = some (.str s) → Engine.strField l k = .ok s := by
        rintro k s (⟨rfl, hh⟩ | ⟨_, hh⟩) <;> simp [Engine.strField, hh]
      have g : ∀ k, l.lookup k = ((((if k = sigKey then some (EV.str assetSig) else none).or
          (if k = "hash" ∧ h ≠ "" then some (.str h) else none)).or
          (if k = "text" ∧ t ≠ "" then some (.str t) else none)).or
          (if k = "path" ∧ p ≠ "" then some (.str p) else none)).or
          (if k = "uri" ∧ u ≠ "" then some (.str u) else none) := by
        intro k
        rw [hl, lookup_append, lookup_append, lookup_append, lookup_append, lookup_txt, lookup_txt, lookup_txt, lookup_txt,
          lookup_one]
      have f1 : Engine.strField l "hash" = .ok h := l2 _ _ (by rw [g]; by_cases hh : h = "" <;> simp [hh, sigKey])
      have f2 : Engine.strField l "text" = .ok t := l2 _ _ (by rw [g]; by_cases hh : t = "" <;> simp [hh, sigKey])
      have f3 : Engine.strField l "path" = .ok p := l2 _ _ (by rw [g]; by_cases hh : p = "" <;> simp [hh, sigKey])
      have f4 : Engine.strField l "uri" = .ok u := l2 _ _ (by rw [g]; by_cases hh : u = "" <;> simp [hh, sigKey])
      simp only [recover, l1, if_true, Engine.deserializeAsset, f1, f2, f3, f4]
      rfl
    exact hr _ rfl
  | @archive h p u h1 h3 h4 =>
    refine ⟨2, fun m hm dec enc => ?_⟩
    obtain ⟨n, rfl⟩ : ∃ n, m = n + 1 + 1 := ⟨m - 2, by omega⟩
    have := eachProp_app (eachProp_app (eachProp_app (eachProp_sig J n dec enc sigKey (s := archiveSig) (by decide))
      (eachProp_text J n dec enc "hash" h1)) (eachProp_text J n dec enc "path" h3)) (eachProp_text J n dec enc "uri" h4)
    rw [blobW, deserialize_struct this]
    have hr : ∀ l, l = [(sigKey, EV.str archiveSig)] ++ txt "hash" h ++ txt "path" p ++ txt "uri" u →
        recover J dec enc (deserialize J (n + 1) nopDecrypter enc) l = .ok (.blob (.archive h p u)) := by
      intro l hl
      have l1 : l.lookup sigKey = some (.str archiveSig) := by rw [hl]; rfl
      have l2 : ∀ k s, s = "" ∧ l.lookup k = none ∨ s ≠ "" ∧ l.lookup k = some (.str s) → Engine.strField l k = .ok s := by
        rintro k s (⟨rfl, hh⟩ | ⟨_, hh⟩) <;> simp [Engine.strField, hh]
      have g : ∀ k, l.lookup k = (((if k = sigKey then some (EV.str archiveSig) else none).or
          (if k = "hash" ∧ h ≠ "" then some (.str h) else none)).or
          (if k = "path" ∧ p ≠ "" then some (.str p) else none)).or
          (if k = "uri" ∧ u ≠ "" then some (.str u) else none) := by
        intro k
        rw [hl, lookup_append, lookup_append, lookup_append, lookup_txt, lookup_txt, lookup_txt, lookup_one]
      have f1 : Engine.strField l "hash" = .ok h := l2 _ _ (by rw [g]; by_cases hh : h = "" <;> simp [hh, sigKey])
      have f3 : Engine.strField l "path" = .ok p := l2 _ _ (by rw [g]; by_cases hh : p = "" <;> simp [hh, sigKey])
      have f4 : Engine.strField l "uri" = .ok u := l2 _ _ (by rw [g]; by_cases hh : u = "" <;> simp [hh, sigKey])
      have f5 : Engine.archiveAssets l = .ok none := by
        have : l.lookup "assets" = none := by rw [g]; simp [sigKey]
        simp [Engine.archiveAssets, this]
      have n1 : archiveSig ≠ assetSig := by decide
      simp only [recover, l1, if_neg n1, if_true, Engine.deserializeArchive, f1, f3, f4, f5]
      rfl
    exact hr _ rfl
  | @assets h p u ms h1 h3 h4 hk hc ih =>
    clear hc
    have hm : ∃ n, ∀ m, n ≤ m → ∀ dec enc,
        eachProp (deserialize J m dec enc) (membersW ms) = .ok (ms.map fun m => (m.1, .blob m.2)) := by
      clear hk
      induction ms with
      | nil => exact ⟨0, fun _ _ _ _ => rfl⟩
      | cons m ms ihm =>
        obtain ⟨k, b⟩ := m
        obtain ⟨n, hn⟩ := exists_bound (ih (k, b) (List.mem_cons_self ..)) (ihm fun m hm => ih m (List.mem_cons_of_mem _ hm))
        exact ⟨n, fun m hm dec enc => by rw [membersW]; exact eachProp_cons ((hn m hm).1 dec enc) ((hn m hm).2 dec enc)⟩
    obtain ⟨N, hm⟩ := hm
    refine ⟨N + 3, fun m hm' dec enc => ?_⟩
    obtain ⟨n, rfl, hn⟩ : ∃ n, m = n + 1 + 1 ∧ N ≤ n := ⟨m - 2, by omega, by omega⟩
    have hms : Engine.archiveMembers (ms.map fun m => (m.1, EV.blob m.2)) = .ok ms := by
      clear hk ih hm
      induction ms with
      | nil => rfl
      | cons m ms ihm => simp [Engine.archiveMembers, ihm, Except.map]
    have ho' : deserialize J (n + 1) dec enc (.struct (membersW ms)) = .ok (.object (ms.map fun m => (m.1, .blob m.2))) := by
      rw [deserialize_struct (hm n hn dec enc), recover_object]
      intro kv hkv
      obtain ⟨m, hm, rfl⟩ := List.mem_map.1 hkv
      exact hk m hm
    have := eachProp_app (eachProp_app (eachProp_app (eachProp_app (eachProp_sig J n dec enc sigKey (s := archiveSig) (by decide))
      (eachProp_text J n dec enc "hash" h1)) (eachProp_one (k := "assets") ho')) (eachProp_text J n dec enc "path" h3))
      (eachProp_text J n dec enc "uri" h4)
    rw [blobW, deserialize_struct this]
    have hr : ∀ l, l = [(sigKey, EV.str archiveSig)] ++ txt "hash" h ++ [("assets", .object (ms.map fun m => (m.1, .blob m.2)))]
          ++ txt "path" p ++ txt "uri" u →
        recover J dec enc (deserialize J (n + 1) nopDecrypter enc) l = .ok (.blob (.assets h ms p u)) := by
      intro l hl
      have l1 : l.lookup sigKey = some (.str archiveSig) := by rw [hl]; rfl
      have l2 : ∀ k s, s = "" ∧ l.lookup k = none ∨ s ≠ "" ∧ l.lookup k = some (.str s) → Engine.strField l k = .ok s := by
        rintro k s (⟨rfl, hh⟩ | ⟨_, hh⟩) <;> simp [Engine.strField, hh]
      have g : ∀ k, l.lookup k = ((((if k = sigKey then some (EV.str archiveSig) else none).or
          (if k = "hash" ∧ h ≠ "" then some (.str h) else none)).or
          (if k = "assets" then some (.object (ms.map fun m => (m.1, .blob m.2))) else none)).or
          (if k = "path" ∧ p ≠ "" then some (.str p) else none)).or
          (if k = "uri" ∧ u ≠ "" then some (.str u) else none) := by
        intro k
        rw [hl, lookup_append, lookup_append, lookup_append, lookup_append, lookup_txt, lookup_txt, lookup_txt, lookup_one,
          lookup_one]
      have f1 : Engine.strField l "hash" = .ok h := l2 _ _ (by rw [g]; by_cases hh : h = "" <;> simp [hh, sigKey])
      have f3 : Engine.strField l "path" = .ok p := l2 _ _ (by rw [g]; by_cases hh : p = "" <;> simp [hh, sigKey])
      have f4 : Engine.strField l "uri" = .ok u := l2 _ _ (by rw [g]; by_cases hh : u = "" <;> simp [hh, sigKey])
      have f5 : Engine.archiveAssets l = .ok (some ms) := by
        have : l.lookup "assets" = some (.object (ms.map fun m => (m.1, .blob m.2))) := by
          rw [g]
          by_cases hh : h = "" <;> simp [sigKey, hh]
        simp [Engine.archiveAssets, this, hms, Except.map]
      have n1 : archiveSig ≠ assetSig := by decide
      simp only [recover, l1, if_neg n1, if_true, Engine.deserializeArchive, f1, f3, f4, f5]
      rfl
    exact hr _ rfl

theorem ref_read (J : Codec) (n : Nat) (dec enc : Decrypter) {urn version : String} {id : RefId} (h1 : urn ≠ reserved)
    (h2 : version ≠ reserved) (h3 : ∀ s, id = .known s → s ≠ "" ∧ s ≠ reserved) :
    deserialize J (n + 2) dec enc (refW urn id version) = .ok (.ref urn id version) := by
  have hb : eachProp (deserialize J (n + 1) dec enc)
      [(sigKey, .str resourceSig), ("urn", .str urn), ("packageVersion", .str version)] =
      .ok [(sigKey, .str resourceSig), ("urn", .str urn), ("packageVersion", .str version)] :=
    eachProp_cons (deserialize_str J n dec enc (by decide)) (eachProp_cons (deserialize_str J n dec enc h1)
      (eachProp_one (deserialize_str J n dec enc h2)))
  have n1 : resourceSig ≠ assetSig := by decide
  have n2 : resourceSig ≠ archiveSig := by decide
  have n3 : resourceSig ≠ secretSig := by decide
  have ne : ∀ a b : String, a ≠ b → (a == b) = false := fun a b h => by simpa using h
  have e1 := ne "urn" sigKey (by decide)
  have e2 := ne "packageVersion" sigKey (by decide)
  have e3 := ne "packageVersion" "urn" (by decide)
  have e4 := ne "id" sigKey (by decide)
  have e5 := ne "id" "urn" (by decide)
  have e6 := ne "id" "packageVersion" (by decide)
  cases id with
  | none =>
    rw [refW, deserialize_struct (eachProp_app (b := idField .none) hb (y := []) rfl)]
    simp only [recover, List.lookup, List.cons_append, List.nil_append, beq_self_eq_true, if_neg n1, if_neg n2, if_neg n3, if_true,
      readRef, readVersion, readId, asStr, e1, e2, e3, e4, e5, e6]
    rfl
  | known s =>
    obtain ⟨hs, hs'⟩ := h3 s rfl
    rw [refW, deserialize_struct (eachProp_app (b := idField (.known s)) hb (eachProp_one (deserialize_str J n dec enc hs')))]
    simp only [recover, List.lookup, List.cons_append, List.nil_append, beq_self_eq_true, if_neg n1, if_neg n2, if_neg n3, if_true,
      readRef, readVersion, readId, asStr, e1, e2, e3, e4, e5, e6, customId, if_neg hs]
    rfl
  | unknown =>
    rw [refW, deserialize_struct (eachProp_app (b := idField .unknown) hb
      (eachProp_one (deserialize_str J n dec enc (s := "") (by decide))))]
    simp only [recover, List.lookup, List.cons_append, List.nil_append, beq_self_eq_true, if_neg n1, if_neg n2, if_neg n3, if_true,
      readRef, readVersion, readId, asStr, e1, e2, e3, e4, e5, e6, customId]
    rfl

theorem opens_nop {σ : Type} {J : Codec} (hJ : J.Faithful) (I : σ → Prop) :
    Opens J I (nopEncrypter (σ := σ)) nopDecrypter := by
  intro w s c s' hI h
  cases h
  exact ⟨rfl, (hJ w).2.1, (hJ w).2.2, hI⟩

/-- A secret comes back. -/
theorem secret_read {J : Codec} (hJ : J.Faithful) (n : Nat) (showSecrets : Bool) {dec enc : Decrypter} {w : W} {c : String}
    {v : EV} (hdec : dec c = .ok (J.print w)) (hc : c ≠ "") (hc' : c ≠ reserved)
    (henc : showSecrets = true → ∃ x, enc (J.print w) = .ok x)
    (hw : deserialize J (n + 1) nopDecrypter enc w = .ok v) :
    deserialize J (n + 2) dec enc (secretW showSecrets (J.print w) c) = .ok (.secret v) := by
  have n1 : secretSig ≠ assetSig := by decide
  have n2 : secretSig ≠ archiveSig := by decide
  have ne : ∀ a b : String, a ≠ b → (a == b) = false := fun a b h => by simpa using h
  have e1 := ne "ciphertext" sigKey (by decide)
  have e2 := ne "plaintext" sigKey (by decide)
  have e3 := ne "plaintext" "ciphertext" (by decide)
  have e4 := ne "ciphertext" "plaintext" (by decide)
  have hs : deserialize J (n + 1) dec enc (.str secretSig) = .ok (.str secretSig) := deserialize_str J n dec enc (by decide)
  have hopen : openSecret J (deserialize J (n + 1) nopDecrypter enc) (J.print w) = .ok (.secret v) := by
    rw [openSecret, (hJ w).1]
    simp only [hw, Except.map]
  cases showSecrets with
  | true =>
    obtain ⟨x, hx⟩ := henc rfl
    have hp := (hJ w).2
    unfold secretW textField
    rw [if_pos rfl, if_neg hp.1, deserialize_struct (eachProp_cons hs (eachProp_one (deserialize_str J n dec enc hp.2)))]
    simp only [recover, List.lookup, beq_self_eq_true, if_neg n1, if_neg n2, if_true, readSecret, asStr, e1, e2, e4, hx]
    exact hopen
  | false =>
    unfold secretW textField
    rw [if_neg Bool.false_ne_true, if_neg hc, deserialize_struct (eachProp_cons hs (eachProp_one (deserialize_str J n dec enc hc')))]
    simp only [recover, List.lookup, beq_self_eq_true, if_neg n1, if_neg n2, if_true, readSecret, asStr, e1, e2, e3, hdec]
    exact hopen

/-- What is written is read back, with as much nesting as it takes. -/
theorem value_read {J : Codec} (hJ : J.Faithful) (showSecrets : Bool) {v : EV} (h : Storable v) {σ : Type} (I : σ → Prop)
    (enc : Encrypter σ) (dec : Decrypter) (enc' : Decrypter) (ho : Opens J I enc dec)
    (henc : showSecrets = true → ∀ p, ∃ x, enc' p = .ok x) (s : σ) (w : W) (s' : σ) (hI : I s)
    (hw : serialize J showSecrets enc v s = .ok (w, s')) :
    I s' ∧ ∃ n, ∀ m, n ≤ m → deserialize J m dec enc' w = .ok (kept v) := by
  induction h generalizing enc dec s w s' with
  | null => rw [serialize] at hw; cases hw; exact ⟨hI, 1, fun m hm => by obtain ⟨n, rfl⟩ : ∃ n, m = n + 1 := ⟨m - 1, by omega⟩; rfl⟩
  | bool b => rw [serialize] at hw; cases hw; exact ⟨hI, 1, fun m hm => by obtain ⟨n, rfl⟩ : ∃ n, m = n + 1 := ⟨m - 1, by omega⟩; rfl⟩
  | num k => rw [serialize] at hw; cases hw; exact ⟨hI, 1, fun m hm => by obtain ⟨n, rfl⟩ : ∃ n, m = n + 1 := ⟨m - 1, by omega⟩; rfl⟩
  | str hs =>
    rw [serialize] at hw; cases hw
    refine ⟨hI, 1, fun m hm => ?_⟩
    obtain ⟨n, rfl⟩ : ∃ n, m = n + 1 := ⟨m - 1, by omega⟩
    exact deserialize_str J n dec enc' hs
  | computed e => rw [serialize] at hw; cases hw; exact ⟨hI, 1, fun m hm => by obtain ⟨n, rfl⟩ : ∃ n, m = n + 1 := ⟨m - 1, by omega⟩; rfl⟩
  | output e k sec d =>
    rw [serialize] at hw; cases hw; exact ⟨hI, 1, fun m hm => by obtain ⟨n, rfl⟩ : ∃ n, m = n + 1 := ⟨m - 1, by omega⟩; rfl⟩
  | blob hb =>
    rw [serialize] at hw; cases hw
    obtain ⟨n, hn⟩ := blob_read J hb
    exact ⟨hI, n, fun m hm => hn m hm dec enc'⟩
  | ref h1 h2 h3 =>
    rw [serialize] at hw; cases hw
    refine ⟨hI, 2, fun m hm => ?_⟩
    obtain ⟨n, rfl⟩ : ∃ n, m = n + 2 := ⟨m - 2, by omega⟩
    exact ref_read J n dec enc' h1 h2 h3
  | @secret e _ ih =>
    rw [serialize] at hw
    cases h1 : serialize J showSecrets nopEncrypter e s with
    | error x => rw [h1] at hw; cases hw
    | ok r =>
      obtain ⟨w1, s1⟩ := r
      rw [h1] at hw
      obtain ⟨hI1, n, hn⟩ := ih nopEncrypter nopDecrypter (opens_nop hJ I) s w1 s1 hI h1
      simp only [bind, Except.bind] at hw
      cases h2 : enc (J.print w1) s1 with
      | error x => rw [h2] at hw; cases hw
      | ok r =>
        obtain ⟨c, s2⟩ := r
        rw [h2] at hw
        cases hw
        obtain ⟨hd, hc, hc', hI2⟩ := ho w1 s1 c s2 hI1 h2
        refine ⟨hI2, n + 2, fun m hm => ?_⟩
        obtain ⟨k, rfl⟩ : ∃ k, m = k + 2 := ⟨m - 2, by omega⟩
        rw [kept]
        exact secret_read hJ k showSecrets hd hc hc' (fun h => henc h _) (hn _ (by omega))
  | @array es hes ih =>
    clear hes
    have key : ∀ s ws s', I s → serializeList J showSecrets enc es s = .ok (ws, s') →
        I s' ∧ ∃ n, ∀ m, n ≤ m → each (deserialize J m dec enc') ws = .ok (keptList es) := by
      clear hw
      induction es with
      | nil =>
        intro s ws s' hI h
        rw [serializeList] at h
        cases h
        exact ⟨hI, 0, fun _ _ => rfl⟩
      | cons e es ihl =>
        intro s ws s' hI h
        rw [serializeList] at h
        cases h1 : serialize J showSecrets enc e s with
        | error x => rw [h1] at h; cases h
        | ok r =>
          obtain ⟨w1, s1⟩ := r
          rw [h1] at h
          simp only [bind, Except.bind] at h
          cases h2 : serializeList J showSecrets enc es s1 with
          | error x => rw [h2] at h; cases h
          | ok r =>
            obtain ⟨ws2, s2⟩ := r
            rw [h2] at h
            cases h
            obtain ⟨hI1, b1⟩ := ih e (List.mem_cons_self ..) enc dec ho s w1 s1 hI h1
            obtain ⟨hI2, b2⟩ := ihl (fun x hx => ih x (List.mem_cons_of_mem _ hx)) s1 ws2 s2 hI1 h2
            obtain ⟨n, hn⟩ := exists_bound b1 b2
            refine ⟨hI2, n, fun m hm => ?_⟩
            rw [each, (hn m hm).1, (hn m hm).2, keptList]
            rfl
    rw [serialize] at hw
    cases h1 : serializeList J showSecrets enc es s with
    | error x => rw [h1] at hw; cases hw
    | ok r =>
      obtain ⟨ws, s1⟩ := r
      rw [h1] at hw
      cases hw
      obtain ⟨hI1, n, hn⟩ := key s ws _ hI h1
      refine ⟨hI1, n + 1, fun m hm => ?_⟩
      obtain ⟨k, rfl⟩ : ∃ k, m = k + 1 := ⟨m - 1, by omega⟩
      simp only [deserialize, hn k (by omega), kept]
      rfl
  | @object kvs hk hes ih =>
    clear hes
    have key : ∀ s ws s', I s → serializeKvs J showSecrets enc kvs s = .ok (ws, s') →
        I s' ∧ ∃ n, ∀ m, n ≤ m → eachProp (deserialize J m dec enc') ws = .ok (keptProps kvs) := by
      clear hw hk
      induction kvs with
      | nil =>
        intro s ws s' hI h
        rw [serializeKvs] at h
        cases h
        exact ⟨hI, 0, fun _ _ => rfl⟩
      | cons kv kvs ihl =>
        obtain ⟨k, e⟩ := kv
        intro s ws s' hI h
        rw [serializeKvs] at h
        cases h1 : serialize J showSecrets enc e s with
        | error x => rw [h1] at h; cases h
        | ok r =>
          obtain ⟨w1, s1⟩ := r
          rw [h1] at h
          simp only [bind, Except.bind] at h
          cases h2 : serializeKvs J showSecrets enc kvs s1 with
          | error x => rw [h2] at h; cases h
          | ok r =>
            obtain ⟨ws2, s2⟩ := r
            rw [h2] at h
            cases h
            obtain ⟨hI1, b1⟩ := ih (k, e) (List.mem_cons_self ..) enc dec ho s w1 s1 hI h1
            obtain ⟨hI2, b2⟩ := ihl (fun x hx => ih x (List.mem_cons_of_mem _ hx)) s1 ws2 s2 hI1 h2
            obtain ⟨n, hn⟩ := exists_bound b1 b2
            refine ⟨hI2, n, fun m hm => ?_⟩
            rw [keptProps]
            exact eachProp_cons (hn m hm).1 (hn m hm).2
    have hkept : ∀ kv ∈ keptProps kvs, kv.1 ≠ reservedName := by
      clear ih key hw
      induction kvs with
      | nil => intro kv h; cases h
      | cons kv kvs ihl =>
        obtain ⟨k, e⟩ := kv
        intro x hx
        rw [keptProps] at hx
        rcases List.mem_cons.1 hx with rfl | hx
        · exact hk (k, e) (List.mem_cons_self ..)
        · exact ihl (fun y hy => hk y (List.mem_cons_of_mem _ hy)) x hx
    rw [serialize] at hw
    cases h1 : serializeKvs J showSecrets enc kvs s with
    | error x => rw [h1] at hw; cases hw
    | ok r =>
      obtain ⟨ws, s1⟩ := r
      rw [h1] at hw
      cases hw
      obtain ⟨hI1, n, hn⟩ := key s ws _ hI h1
      refine ⟨hI1, n + 1, fun m hm => ?_⟩
      obtain ⟨k, rfl⟩ : ∃ k, m = k + 1 := ⟨m - 1, by omega⟩
      rw [deserialize_struct (hn k (by omega)), kept]
      exact recover_object J dec enc' _ hkept

end Pulumi.Checkpoint
