import Verif.Checkpoint.Fill
/-! # Lemmas: the cache of ciphertexts, and decrypting all at once -/
namespace Pulumi.Checkpoint

open Wire (W)
open Engine (EV Blob RefId sigKey assetSig archiveSig secretSig resourceSig textField)

/-! ## How deep reading follows a value does not matter -/

theorem each_mono {f g : W → Except Err EV} (h : ∀ w v, f w = .ok v → g w = .ok v) {ws vs} (hw : each f ws = .ok vs) :
    each g ws = .ok vs := by
  induction ws generalizing vs with
  | nil => exact hw
  | cons w ws ih =>
    rw [each] at hw ⊢
    cases h1 : f w with
    | error e => rw [h1] at hw; cases hw
    | ok v =>
      rw [h1] at hw
      simp only [bind, Except.bind] at hw
      cases h2 : each f ws with
      | error e => rw [h2] at hw; cases hw
      | ok vs' =>
        rw [h2] at hw
        cases hw
        rw [h w v h1, ih h2]
        rfl

theorem eachProp_mono {f g : W → Except Err EV} (h : ∀ w v, f w = .ok v → g w = .ok v) {ws vs}
    (hw : eachProp f ws = .ok vs) : eachProp g ws = .ok vs := by
  induction ws generalizing vs with
  | nil => exact hw
  | cons kw ws ih =>
    obtain ⟨k, w⟩ := kw
    rw [eachProp] at hw ⊢
    cases h1 : f w with
    | error e => rw [h1] at hw; cases hw
    | ok v =>
      rw [h1] at hw
      simp only [bind, Except.bind] at hw
      cases h2 : eachProp f ws with
      | error e => rw [h2] at hw; cases hw
      | ok vs' =>
        rw [h2] at hw
        cases hw
        rw [h w v h1, ih h2]
        rfl

theorem openSecret_mono {J : Codec} {f g : W → Except Err EV} (h : ∀ w v, f w = .ok v → g w = .ok v) {p v}
    (hw : openSecret J f p = .ok v) : openSecret J g p = .ok v := by
  unfold openSecret at hw ⊢
  cases hp : J.parse p with
  | none => rw [hp] at hw; cases hw
  | some w =>
    rw [hp] at hw
    simp only at hw ⊢
    cases h1 : f w with
    | error e => rw [h1] at hw; cases hw
    | ok x => rw [h1] at hw; rw [h w x h1]; exact hw

theorem recover_mono {J : Codec} {dec enc : Decrypter} {f g : W → Except Err EV} (h : ∀ w v, f w = .ok v → g w = .ok v)
    {obj v} (hw : recover J dec enc f obj = .ok v) : recover J dec enc g obj = .ok v := by
  unfold recover at hw ⊢
  split at hw
  · exact hw
  · split
    · rename_i h1; rw [if_pos h1] at hw; exact hw
    · rename_i h1
      rw [if_neg h1] at hw
      split
      · rename_i h2; rw [if_pos h2] at hw; exact hw
      · rename_i h2
        rw [if_neg h2] at hw
        split
        · rename_i h3
          rw [if_pos h3] at hw
          unfold readSecret at hw ⊢
          split at hw
          · cases h4 : dec ‹String› with
            | error e => rw [h4] at hw; cases hw
            | ok p =>
              rw [h4] at hw
              exact openSecret_mono h hw
          · cases h4 : enc ‹String› with
            | error e => rw [h4] at hw; cases hw
            | ok p =>
              rw [h4] at hw
              exact openSecret_mono h hw
          · cases hw
        · rename_i h3
          rw [if_neg h3] at hw
          exact hw
  · exact hw

theorem deserialize_succ (J : Codec) (n : Nat) (dec enc : Decrypter) (w : W) (v : EV)
    (h : deserialize J n dec enc w = .ok v) : deserialize J (n + 1) dec enc w = .ok v := by
  induction n generalizing dec w v with
  | zero => cases h
  | succ n ih =>
    cases w with
    | list ws =>
      rw [deserialize] at h ⊢
      cases h1 : each (deserialize J n dec enc) ws with
      | error e => rw [h1] at h; cases h
      | ok vs => rw [h1] at h; rw [each_mono (ih dec) h1]; exact h
    | struct kvs =>
      rw [deserialize] at h
      cases h1 : eachProp (deserialize J n dec enc) kvs with
      | error e => rw [h1] at h; cases h
      | ok obj =>
        rw [h1] at h
        rw [deserialize_struct (eachProp_mono (ih dec) h1)]
        exact recover_mono (ih nopDecrypter) h
    | _ => exact h

theorem deserialize_mono {J : Codec} {n m : Nat} (hnm : n ≤ m) {dec enc : Decrypter} {w : W} {v : EV}
    (h : deserialize J n dec enc w = .ok v) : deserialize J m dec enc w = .ok v := by
  induction hnm with
  | refl => exact h
  | step _ ih => exact deserialize_succ J _ dec enc w v ih

/-! ## What decrypting is asked for -/

theorem recover_str {J : Codec} {dec enc : Decrypter} {f : W → Except Err EV} {obj s} :
    recover J dec enc f obj ≠ .ok (.str s) := by
  intro h
  unfold recover at h
  split at h
  · cases h
  · split at h
    · cases hb : Engine.deserializeAsset obj <;> (rw [hb] at h; cases h)
    · split at h
      · cases hb : Engine.deserializeArchive obj <;> (rw [hb] at h; cases h)
      · split at h
        · unfold readSecret at h
          have ho : ∀ p, openSecret J f p ≠ .ok (.str s) := by
            intro p h
            unfold openSecret at h
            split at h
            · cases h
            · rename_i w _
              cases hf : f w <;> (rw [hf] at h; cases h)
          split at h
          · cases h4 : dec ‹String› with
            | error e => rw [h4] at h; cases h
            | ok p => rw [h4] at h; exact ho p h
          · cases h4 : enc ‹String› with
            | error e => rw [h4] at h; cases h
            | ok p => rw [h4] at h; exact ho _ h
          · cases h
        · split at h
          · unfold readRef at h
            cases h1 : readVersion obj with
            | error e => rw [h1] at h; cases h
            | ok ver =>
              rw [h1] at h
              simp only [bind, Except.bind] at h
              split at h
              · cases h
              · cases h2 : readId obj <;> (rw [h2] at h; cases h)
          · cases h
  · cases h

theorem deserialize_str_inv {J : Codec} {n : Nat} {dec enc : Decrypter} {w : W} {s : String}
    (h : deserialize J n dec enc w = .ok (.str s)) : w = .str s := by
  cases n with
  | zero => cases h
  | succ n =>
    cases w with
    | str t =>
      simp only [deserialize] at h
      split at h
      · cases h
      · cases h; rfl
    | list ws =>
      simp only [deserialize] at h
      cases h1 : each (deserialize J n dec enc) ws <;> (rw [h1] at h; cases h)
    | struct kvs =>
      simp only [deserialize] at h
      cases h1 : eachProp (deserialize J n dec enc) kvs with
      | error e => rw [h1] at h; cases h
      | ok obj => rw [h1] at h; exact absurd h recover_str
    | _ => cases h

theorem eachProp_lookup {f : W → Except Err EV} {kvs obj} (h : eachProp f kvs = .ok obj) (k : String) {v : EV}
    (hl : obj.lookup k = some v) : ∃ w, kvs.lookup k = some w ∧ f w = .ok v := by
  induction kvs generalizing obj with
  | nil => cases h; cases hl
  | cons kw kvs ih =>
    obtain ⟨k', w⟩ := kw
    rw [eachProp] at h
    cases h1 : f w with
    | error e => rw [h1] at h; cases h
    | ok x =>
      rw [h1] at h
      simp only [bind, Except.bind] at h
      cases h2 : eachProp f kvs with
      | error e => rw [h2] at h; cases h
      | ok obj' =>
        rw [h2] at h
        cases h
        rw [List.lookup] at hl ⊢
        cases hk : k == k' with
        | true =>
          rw [hk] at hl
          cases hl
          exact ⟨w, rfl, h1⟩
        | false =>
          rw [hk] at hl
          exact ih h2 hl

theorem each_congr {f g : W → Except Err EV} {ws : List W} (h : ∀ w ∈ ws, f w = g w) : each f ws = each g ws := by
  induction ws with
  | nil => rfl
  | cons w ws ih =>
    rw [each, each, h w (List.mem_cons_self ..), ih fun x hx => h x (List.mem_cons_of_mem _ hx)]

theorem eachProp_congr {f g : W → Except Err EV} {ws : List (String × W)} (h : ∀ w ∈ ws, f w.2 = g w.2) :
    eachProp f ws = eachProp g ws := by
  induction ws with
  | nil => rfl
  | cons w ws ih =>
    obtain ⟨k, w⟩ := w
    rw [eachProp, eachProp, h (k, w) (List.mem_cons_self ..), ih fun x hx => h x (List.mem_cons_of_mem _ hx)]

theorem mem_collectList {ws : List W} {w : W} (hw : w ∈ ws) {c : String} (hc : c ∈ collect w) : c ∈ collectList ws := by
  induction ws with
  | nil => cases hw
  | cons x ws ih =>
    rw [collectList]
    rcases List.mem_cons.1 hw with rfl | h
    · exact List.mem_append_left _ hc
    · exact List.mem_append_right _ (ih h)

theorem mem_collectKvs {ws : List (String × W)} {w : String × W} (hw : w ∈ ws) {c : String} (hc : c ∈ collect w.2) :
    c ∈ collectKvs ws := by
  induction ws with
  | nil => cases hw
  | cons x ws ih =>
    obtain ⟨k, x⟩ := x
    rw [collectKvs]
    rcases List.mem_cons.1 hw with rfl | h
    · exact List.mem_append_left _ hc
    · exact List.mem_append_right _ (ih h)

theorem deserialize_leaf (J : Codec) (n : Nat) (dec dec' enc : Decrypter) {w : W} (h : ∀ ws, w ≠ .list ws)
    (h' : ∀ kvs, w ≠ .struct kvs) : deserialize J n dec enc w = deserialize J n dec' enc w := by
  cases n with
  | zero => rfl
  | succ n =>
    cases w with
    | list ws => exact absurd rfl (h ws)
    | struct ws => exact absurd rfl (h' ws)
    | _ => rfl

/-- Reading asks for no ciphertexts but those that are collected. -/
theorem deserialize_asks (J : Codec) {w : W} (hw : Flat w) (n : Nat) (dec dec' enc : Decrypter)
    (h : ∀ c ∈ collect w, dec c = dec' c) : deserialize J n dec enc w = deserialize J n dec' enc w := by
  induction hw generalizing n with
  | leaf h1 h2 => exact deserialize_leaf J n dec dec' enc h1 h2
  | @list ws _ ih =>
    cases n with
    | zero => rfl
    | succ n =>
      simp only [deserialize]
      rw [each_congr fun w hw => ih w hw n fun c hc => h c (by rw [collect]; exact mem_collectList hw hc)]
  | @struct kvs _ hs ih =>
    cases n with
    | zero => rfl
    | succ n =>
      have heq : eachProp (deserialize J n dec enc) kvs = eachProp (deserialize J n dec' enc) kvs := by
        by_cases hsig : kvs.lookup sigKey = some (.str secretSig)
        · exact eachProp_congr fun kv hkv => deserialize_leaf J n dec dec' enc (hs hsig kv hkv).1 (hs hsig kv hkv).2
        · refine eachProp_congr fun kv hkv => ih kv hkv n fun c hc => h c ?_
          rw [collect]
          split
          · rename_i s hl
            have : s ≠ secretSig := by rintro rfl; exact hsig hl
            rw [if_neg this]
            exact mem_collectKvs hkv hc
          · exact mem_collectKvs hkv hc
      simp only [deserialize]
      rw [heq]
      cases ho : eachProp (deserialize J n dec' enc) kvs with
      | error e => rfl
      | ok obj =>
        simp only [bind, Except.bind]
        unfold recover
        split
        · rfl
        · rename_i s hl
          split
          · rfl
          · split
            · rfl
            · split
              · rename_i hsec
                subst hsec
                obtain ⟨w, hw, hd⟩ := eachProp_lookup ho sigKey hl
                rw [deserialize_str_inv hd] at hw
                unfold readSecret
                split
                · rename_i c hcx _
                  have hc : obj.lookup "ciphertext" = some (.str c) := by
                    cases hx : obj.lookup "ciphertext" with
                    | none => rw [hx] at hcx; cases hcx
                    | some x =>
                      rw [hx] at hcx
                      cases x <;> cases hcx
                      rfl
                  obtain ⟨w', hw', hd'⟩ := eachProp_lookup ho "ciphertext" hc
                  rw [deserialize_str_inv hd'] at hw'
                  rw [h c (by rw [collect, hw]; simp [hw'])]
                · rfl
                · rfl
              · rfl
        · rfl

theorem bulk_lookup {dec : Decrypter} {cs cache} (h : bulkDecrypt dec cs = .ok cache) (c : String) :
    (∀ p, cache.lookup c = some p → dec c = .ok p) ∧ (c ∈ cs → ∃ p, cache.lookup c = some p) := by
  induction cs generalizing cache with
  | nil => cases h; exact ⟨fun p h => (by cases h), fun h => (by cases h)⟩
  | cons x cs ih =>
    rw [bulkDecrypt] at h
    cases h1 : dec x with
    | error e => rw [h1] at h; cases h
    | ok p =>
      rw [h1] at h
      simp only [bind, Except.bind] at h
      cases h2 : bulkDecrypt dec cs with
      | error e => rw [h2] at h; cases h
      | ok cache' =>
        rw [h2] at h
        cases h
        rw [List.lookup]
        cases hk : c == x with
        | true =>
          obtain rfl : c = x := by simpa using hk
          exact ⟨fun q hq => by cases hq; exact h1, fun _ => ⟨p, rfl⟩⟩
        | false =>
          refine ⟨(ih h2).1, fun hm => ?_⟩
          rcases List.mem_cons.1 hm with rfl | hm
          · simp at hk
          · exact (ih h2).2 hm

/-! ## What is written is flat -/

theorem flat_str (s : String) : Flat (.str s) := .leaf (fun _ h => by cases h) (fun _ h => by cases h)

theorem flat_text {k s : String} {kv : String × W} (h : kv ∈ textField k s) : ∃ t, kv = (k, .str t) := by
  unfold textField at h
  split at h
  · cases h
  · exact ⟨s, by simpa using h⟩

theorem flat_blob {b : Blob} (h : StorableBlob b) : Flat (blobW b) := by
  induction h with
  | asset =>
    rw [blobW]
    refine .struct (fun kv hkv => ?_) fun hs => absurd hs (by simp [sigKey, reservedName, assetSig])
    simp only [List.mem_append, List.mem_cons, List.not_mem_nil, or_false] at hkv
    rcases hkv with (((rfl | h) | h) | h) | h
    · exact flat_str _
    all_goals
      obtain ⟨t, rfl⟩ := flat_text h
      exact flat_str _
  | archive =>
    rw [blobW]
    refine .struct (fun kv hkv => ?_) fun hs => absurd hs (by simp [sigKey, reservedName, archiveSig])
    simp only [List.mem_append, List.mem_cons, List.not_mem_nil, or_false] at hkv
    rcases hkv with ((rfl | h) | h) | h
    · exact flat_str _
    all_goals
      obtain ⟨t, rfl⟩ := flat_text h
      exact flat_str _
  | @assets h p u ms _ _ _ hk hes ih =>
    clear hes
    rw [blobW]
    refine .struct (fun kv hkv => ?_) fun hs => absurd hs (by simp [sigKey, reservedName, archiveSig])
    simp only [List.mem_append, List.mem_cons, List.not_mem_nil, or_false] at hkv
    rcases hkv with (((rfl | h) | rfl) | h) | h
    · exact flat_str _
    · obtain ⟨t, rfl⟩ := flat_text h
      exact flat_str _
    · have key : ∀ kv ∈ membersW ms, kv.1 ≠ reservedName ∧ Flat kv.2 := by
        induction ms with
        | nil => intro kv h; cases h
        | cons m ms ihm =>
          obtain ⟨k, b⟩ := m
          intro kv hkv
          rw [membersW] at hkv
          rcases List.mem_cons.1 hkv with rfl | hkv
          · exact ⟨hk (k, b) (List.mem_cons_self ..), ih (k, b) (List.mem_cons_self ..)⟩
          · exact ihm (fun m hm => hk m (List.mem_cons_of_mem _ hm)) (fun m hm => ih m (List.mem_cons_of_mem _ hm)) kv hkv
      refine .struct (fun kv hkv => (key kv hkv).2) fun hs => ?_
      rw [lookup_none_of_ne fun kv hkv => (key kv hkv).1] at hs
      cases hs
    · obtain ⟨t, rfl⟩ := flat_text h
      exact flat_str _
    · obtain ⟨t, rfl⟩ := flat_text h
      exact flat_str _

theorem flat_ref (urn : String) (id : RefId) (version : String) : Flat (refW urn id version) := by
  unfold refW
  refine .struct (fun kv hkv => ?_) fun hs => absurd hs (by simp [sigKey, reservedName, resourceSig])
  cases id <;> simp [idField] at hkv <;> rcases hkv with rfl | rfl | rfl | rfl <;> exact flat_str _

theorem flat_secret (b : Bool) (p c : String) : Flat (secretW b p c) := by
  have hl : ∀ kv ∈ ((sigKey, W.str secretSig) :: (if b then textField "plaintext" p else textField "ciphertext" c)),
      ∃ k t, kv = (k, .str t) := by
    intro kv hkv
    rcases List.mem_cons.1 hkv with rfl | h
    · exact ⟨_, _, rfl⟩
    · split at h <;> exact ⟨_, flat_text h⟩
  unfold secretW
  refine .struct (fun kv hkv => ?_) fun _ kv hkv => ?_
  · obtain ⟨k, t, rfl⟩ := hl kv hkv
    exact flat_str _
  · obtain ⟨k, t, rfl⟩ := hl kv hkv
    exact ⟨fun _ h => (by cases h), fun _ h => (by cases h)⟩

theorem flat_serialize {J : Codec} {b : Bool} {σ : Type} {enc : Encrypter σ} {v : EV} (h : Storable v) {s : σ} {w s'}
    (hw : serialize J b enc v s = .ok (w, s')) : Flat w := by
  induction h generalizing s w s' with
  | null => rw [serialize] at hw; cases hw; exact .leaf (fun _ h => by cases h) (fun _ h => by cases h)
  | bool => rw [serialize] at hw; cases hw; exact .leaf (fun _ h => by cases h) (fun _ h => by cases h)
  | num => rw [serialize] at hw; cases hw; exact .leaf (fun _ h => by cases h) (fun _ h => by cases h)
  | str => rw [serialize] at hw; cases hw; exact flat_str _
  | computed => rw [serialize] at hw; cases hw; exact flat_str _
  | output => rw [serialize] at hw; cases hw; exact flat_str _
  | blob hb => rw [serialize] at hw; cases hw; exact flat_blob hb
  | ref => rw [serialize] at hw; cases hw; exact flat_ref _ _ _
  | @secret e _ ih =>
    rw [serialize, serialize_nop] at hw
    simp only [bind, Except.bind] at hw
    cases h2 : enc (J.print (plain J b e)) s with
    | error x => rw [h2] at hw; cases hw
    | ok r => rw [h2] at hw; cases hw; exact flat_secret _ _ _
  | @array es hes ih =>
    clear hes
    have key : ∀ s ws s', serializeList J b enc es s = .ok (ws, s') → ∀ w ∈ ws, Flat w := by
      clear hw
      induction es with
      | nil => intro s ws s' h; rw [serializeList] at h; cases h; intro w h; cases h
      | cons e es ihl =>
        intro s ws s' h
        rw [serializeList] at h
        cases h1 : serialize J b enc e s with
        | error x => rw [h1] at h; cases h
        | ok r =>
          rw [h1] at h
          simp only [bind, Except.bind] at h
          cases h2 : serializeList J b enc es r.2 with
          | error x => rw [h2] at h; cases h
          | ok r2 =>
            rw [h2] at h
            cases h
            intro w hw
            rcases List.mem_cons.1 hw with rfl | hw
            · exact ih e (List.mem_cons_self ..) h1
            · exact ihl (fun x hx => ih x (List.mem_cons_of_mem _ hx)) _ _ _ h2 w hw
    rw [serialize] at hw
    cases h1 : serializeList J b enc es s with
    | error x => rw [h1] at hw; cases hw
    | ok r => rw [h1] at hw; cases hw; exact .list (key _ _ _ h1)
  | @object kvs hk hes ih =>
    clear hes
    have key : ∀ s ws s', serializeKvs J b enc kvs s = .ok (ws, s') → ∀ w ∈ ws, w.1 ≠ reservedName ∧ Flat w.2 := by
      clear hw
      induction kvs with
      | nil => intro s ws s' h; rw [serializeKvs] at h; cases h; intro w h; cases h
      | cons kv kvs ihl =>
        obtain ⟨k, e⟩ := kv
        intro s ws s' h
        rw [serializeKvs] at h
        cases h1 : serialize J b enc e s with
        | error x => rw [h1] at h; cases h
        | ok r =>
          rw [h1] at h
          simp only [bind, Except.bind] at h
          cases h2 : serializeKvs J b enc kvs r.2 with
          | error x => rw [h2] at h; cases h
          | ok r2 =>
            rw [h2] at h
            cases h
            intro w hw
            rcases List.mem_cons.1 hw with rfl | hw
            · exact ⟨hk (k, e) (List.mem_cons_self ..), ih (k, e) (List.mem_cons_self ..) h1⟩
            · exact ihl (fun x hx => hk x (List.mem_cons_of_mem _ hx)) (fun x hx => ih x (List.mem_cons_of_mem _ hx)) _ _ _ h2 w hw
    rw [serialize] at hw
    cases h1 : serializeKvs J b enc kvs s with
    | error x => rw [h1] at hw; cases hw
    | ok r =>
      rw [h1] at hw
      cases hw
      refine .struct (fun kv hkv => (key _ _ _ h1 kv hkv).2) fun hs => ?_
      rw [lookup_none_of_ne fun kv hkv => (key _ _ _ h1 kv hkv).1] at hs
      cases hs

/-! ## The cache of the encrypter -/

theorem caching_cases {σ : Type} {address : Nat → Nat} {enc : Encrypter σ} {p : String} {s : Cache σ} {c s'}
    (h : caching address enc p s = .ok (c, s')) :
    (s.entries.lookup (address s.next) = some (p, c) ∧ s' = { s with next := s.next + 1 }) ∨
    ((∀ c', s.entries.lookup (address s.next) ≠ some (p, c')) ∧ ∃ i, enc p s.inner = .ok (c, i) ∧
      s' = { entries := (address s.next, p, c) :: s.entries, inner := i, next := s.next + 1 }) := by
  have fresh : encryptAfresh (address s.next) enc p s = .ok (c, s') → ∃ i, enc p s.inner = .ok (c, i) ∧
      s' = { entries := (address s.next, p, c) :: s.entries, inner := i, next := s.next + 1 } := by
    intro h
    unfold encryptAfresh at h
    cases h1 : enc p s.inner with
    | error e => rw [h1] at h; cases h
    | ok r =>
      rw [h1] at h
      cases h
      exact ⟨_, rfl, rfl⟩
  unfold caching at h
  split at h
  · rename_i p' c' hl
    split at h
    · rename_i hp
      cases h
      subst hp
      exact .inl ⟨hl, rfl⟩
    · rename_i hp
      refine .inr ⟨fun c'' hc => ?_, fresh h⟩
      rw [hl] at hc
      cases hc
      exact hp rfl
  · rename_i hl
    refine .inr ⟨fun c'' hc => ?_, fresh h⟩
    rw [hl] at hc
    cases hc

theorem caching_next {σ : Type} {address : Nat → Nat} {enc : Encrypter σ} {p : String} {s : Cache σ} {c s'}
    (h : caching address enc p s = .ok (c, s')) : s'.next = s.next + 1 ∧ s'.entries.lookup (address s.next) = some (p, c) ∧
      ∀ a, a ≠ address s.next → s'.entries.lookup a = s.entries.lookup a := by
  rcases caching_cases h with ⟨hl, rfl⟩ | ⟨_, i, _, rfl⟩
  · exact ⟨rfl, hl, fun _ _ => rfl⟩
  · refine ⟨rfl, by simp, fun a ha => ?_⟩
    have : (a == address s.next) = false := by simpa using ha
    simp only [List.lookup, this]

theorem opens_caching {σ : Type} {J : Codec} {I : σ → Prop} {enc : Encrypter σ} {dec : Decrypter} (ho : Opens J I enc dec)
    (address : Nat → Nat) : Opens J (GoodCache I dec) (caching address enc) dec := by
  intro w s c s' hI h
  rcases caching_cases h with ⟨hl, rfl⟩ | ⟨_, i, he, rfl⟩
  · have hm : ∀ (l : List (Nat × String × String)) a x, l.lookup a = some x → (a, x) ∈ l := by
      intro l
      induction l with
      | nil => intro a x h; cases h
      | cons y l ih =>
        intro a x h
        obtain ⟨b, y⟩ := y
        rw [List.lookup] at h
        cases hk : a == b with
        | true =>
          rw [hk] at h
          cases h
          have : a = b := by simpa using hk
          rw [this]
          exact List.mem_cons_self ..
        | false =>
          rw [hk] at h
          exact List.mem_cons_of_mem _ (ih a x h)
    have := hI.2 _ _ _ (hm _ _ _ hl)
    exact ⟨this.1, this.2.1, this.2.2, hI⟩
  · obtain ⟨h1, h2, h3, h4⟩ := ho w s.inner c i hI.1 he
    refine ⟨h1, h2, h3, h4, fun a p c' hm => ?_⟩
    rcases List.mem_cons.1 hm with e | hm
    · cases e
      exact ⟨h1, h2, h3⟩
    · exact hI.2 a p c' hm

/-- A ciphertext that is in the cache stays there, and is the one for its text, as long as the texts at the address are the
same. -/
theorem caching_keeps {σ : Type} {address : Nat → Nat} {enc : Encrypter σ} {ps : List String} {s : Cache σ} {cs s'}
    (h : Encrypts (caching address enc) ps s cs s') {a : Nat} {p c : String} (hl : s.entries.lookup a = some (p, c))
    (hp : ∀ i q, ps[i]? = some q → address (s.next + i) = a → q = p) :
    s'.entries.lookup a = some (p, c) ∧ ∀ i d, cs[i]? = some d → address (s.next + i) = a → d = c := by
  induction h with
  | nil s => exact ⟨hl, fun i d h => by cases h⟩
  | @cons q ps s d s1 cs s2 h1 _ ih =>
    obtain ⟨hn, hh, hk⟩ := caching_next h1
    have hl1 : s1.entries.lookup a = some (p, c) := by
      by_cases ha : a = address s.next
      · have hqp := hp 0 q rfl ha.symm
        rcases caching_cases h1 with ⟨hl', rfl⟩ | ⟨hno, _⟩
        · exact hl
        · rw [ha] at hl
          subst hqp
          exact absurd hl (hno c)
      · rw [hk a ha]
        exact hl
    obtain ⟨e1, e2⟩ := ih hl1 fun i q' hq ha => hp (i + 1) q' (by simpa using hq) (by rw [hn] at ha; rwa [show s.next + (i + 1) = s.next + 1 + i by omega])
    refine ⟨e1, fun i d' hd ha => ?_⟩
    cases i with
    | zero =>
      simp only [List.getElem?_cons_zero, Option.some.injEq] at hd
      subst hd
      have ha : address s.next = a := ha
      rw [ha] at hh
      rw [hh] at hl1
      cases hl1
      rfl
    | succ i => exact e2 i d' (by simpa using hd) (by rw [hn]; rwa [show s.next + 1 + i = s.next + (i + 1) by omega])

/-- Afterwards the ciphertexts that were written are in the cache. -/
theorem caching_has {σ : Type} {address : Nat → Nat} {enc : Encrypter σ} {ps : List String} {s : Cache σ} {cs s'}
    (h : Encrypts (caching address enc) ps s cs s')
    (hp : ∀ i j p q, ps[i]? = some p → ps[j]? = some q → address (s.next + i) = address (s.next + j) → p = q)
    (i : Nat) (p c : String) (hpi : ps[i]? = some p) (hci : cs[i]? = some c) :
    s'.entries.lookup (address (s.next + i)) = some (p, c) := by
  induction h generalizing i p c with
  | nil s => cases hpi
  | @cons q ps s d s1 cs s2 h1 ht ih =>
    obtain ⟨hn, hh, hk⟩ := caching_next h1
    cases i with
    | zero =>
      simp only [List.getElem?_cons_zero, Option.some.injEq] at hpi hci
      subst hpi hci
      refine (caching_keeps ht hh fun i q' hq ha => ?_).1
      exact hp (i + 1) 0 q' q (by simpa using hq) rfl (by rw [hn] at ha; rwa [show s.next + (i + 1) = s.next + 1 + i by omega])
    | succ i =>
      have := ih (fun i j p q hp1 hp2 ha => hp (i + 1) (j + 1) p q (by simpa using hp1) (by simpa using hp2) (by
        rw [hn] at ha
        rwa [show s.next + (i + 1) = s.next + 1 + i by omega, show s.next + (j + 1) = s.next + 1 + j by omega])) i p c
        (by simpa using hpi) (by simpa using hci)
      rw [hn] at this
      rwa [show s.next + (i + 1) = s.next + 1 + i by omega]

theorem caching_hits {σ : Type} {address : Nat → Nat} {enc : Encrypter σ} {ps cs : List String} (s : Cache σ)
    (hlen : cs.length = ps.length)
    (h : ∀ i p c, ps[i]? = some p → cs[i]? = some c → s.entries.lookup (address (s.next + i)) = some (p, c)) :
    Encrypts (caching address enc) ps s cs { s with next := s.next + ps.length } := by
  induction ps generalizing cs s with
  | nil =>
    cases cs with
    | nil => exact .nil s
    | cons c cs => cases hlen
  | cons p ps ih =>
    cases cs with
    | nil => cases hlen
    | cons c cs =>
      have h0 := h 0 p c rfl rfl
      have hc : caching address enc p s = .ok (c, { s with next := s.next + 1 }) := by
        unfold caching
        rw [Nat.add_zero] at h0
        rw [h0]
        simp
      have := ih (cs := cs) { s with next := s.next + 1 } (by simpa using hlen) fun i p' c' hp hc => by
        have := h (i + 1) p' c' (by simpa using hp) (by simpa using hc)
        rwa [show s.next + 1 + i = s.next + (i + 1) by omega]
      refine .cons hc ?_
      rwa [show s.next + (p :: ps).length = s.next + 1 + ps.length by simp; omega]

end Pulumi.Checkpoint
