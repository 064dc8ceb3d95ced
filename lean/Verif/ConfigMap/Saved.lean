import Verif.ConfigMap.Lemmas
import Verif.Checkpoint.Json
/-! # Configuration that is saved, decrypted and copied (C187, C188) -/
namespace Pulumi.ConfigMap

open Wire (W)
open Checkpoint (Codec)
open Paths (Path)

/-! ## Keys -/

theorem cut_append (a b : List Char) (h : ':' ∉ a) : cut (a ++ ':' :: b) = some (a, b) := by
  induction a with
  | nil => rfl
  | cons c a ih =>
    simp only [List.mem_cons, not_or] at h
    rw [List.cons_append, cut, if_neg (fun e => h.1 e.symm), ih h.2]
    rfl

theorem cut_none {a : List Char} : cut a = none ↔ ':' ∉ a := by
  induction a with
  | nil => simp [cut]
  | cons c a ih =>
    rw [cut]
    by_cases h : c = ':'
    · simp [h]
    · have : ':' ≠ c := fun e => h e.symm
      rw [if_neg h]
      simp [ih, this]

theorem cut_length {a x y : List Char} (h : cut a = some (x, y)) : y.length < a.length := by
  induction a generalizing x with
  | nil => cases h
  | cons c a ih =>
    rw [cut] at h
    split at h
    · cases h
      simp
    · cases hc : cut a with
      | none => rw [hc] at h; cases h
      | some ab =>
        rw [hc] at h
        obtain ⟨p, q⟩ := ab
        cases h
        have := ih hc
        simp only [List.length_cons] at this ⊢
        omega

theorem key_text (k : Key) : k.text.toList = k.ns.toList ++ ':' :: k.name.toList := by
  unfold Key.text
  simp only [String.toList_append]
  rw [show (":" : String).toList = [':'] from rfl]
  simp

/-- **C187.** A key is read as it was written exactly if there is no colon in its name. -/
theorem key_round_trips_iff (k : Key) (hns : NoColon k.ns) : parseKey k.text = .ok k ↔ NoColon k.name := by
  unfold parseKey
  rw [key_text, cut_append _ _ hns]
  simp only
  constructor
  · intro h
    cases hc : cut k.name.toList with
    | none => exact cut_none.1 hc
    | some bc =>
      obtain ⟨b, c⟩ := bc
      rw [hc] at h
      simp only at h
      split at h
      · cases h
      · split at h
        · have h' : String.ofList c = k.name := by
            have := congrArg (fun r => match r with | Except.ok (k : Key) => k.name | _ => "") h
            exact this
          have hl := cut_length hc
          rw [← h'] at hl
          simp at hl
        · cases h
  · intro h
    rw [cut_none.2 h]
    simp

/-- **C187.** The old way to write a key is read as the new one. -/
theorem old_keys_are_read (k : Key) (hns : NoColon k.ns) (hn : NoColon k.name) :
    parseKey (k.ns ++ ":config:" ++ k.name) = .ok k := by
  unfold parseKey
  have h : (k.ns ++ ":config:" ++ k.name).toList = k.ns.toList ++ ':' :: ("config".toList ++ ':' :: k.name.toList) := by
    simp
  rw [h, cut_append _ _ hns]
  simp only
  rw [cut_append _ _ (by decide)]
  simp only
  rw [cut_none.2 hn]
  simp

/-! ## Saving -/

theorem fromJson_obj {J : Codec} (w : W) (h1 : ∀ s, w ≠ .str s) (h2 : w ≠ .null) (h3 : ∀ s, w ≠ .struct [("secure", .str s)]) :
    fromJson J w = ⟨J.print w, hasSecure w, true⟩ := by
  have hs : isSecure w = none := by
    cases hs : isSecure w with
    | none => rfl
    | some s => exact absurd (isSecure_some hs) (h3 s)
  unfold fromJson
  split
  · exact absurd rfl (h1 _)
  · exact absurd rfl h2
  · rw [hs]

/-- **C187.** A value is read as it was written. -/
theorem value_round_trips {J : Codec} (hJ : Faithful J) (v : Value) (hv : Consistent J v) :
    ∃ w, toJson J v = .ok w ∧ fromJson J w = v := by
  obtain ⟨value, secure, object⟩ := v
  unfold toJson
  cases object with
  | false =>
    cases secure with
    | false => exact ⟨_, rfl, rfl⟩
    | true => exact ⟨_, rfl, by simp [secureW, fromJson, isSecure]⟩
  | true =>
    obtain ⟨w, h1, h2, h3, h4, h5⟩ := hv rfl
    simp only at h1 h5
    subst h1 h5
    refine ⟨w, by simp [decode, hJ w], ?_⟩
    rw [fromJson_obj w h2 h3 h4]

/-- **C187.** What is saved tells whether there is a secret in it, whatever the value in memory said. -/
theorem saving_finds_the_secrets {J : Codec} (hJ : Faithful J) (w : W) (b : Bool) (h1 : ∀ s, w ≠ .str s) (h2 : w ≠ .null)
    (h3 : ∀ s, w ≠ .struct [("secure", .str s)]) :
    ∃ x, toJson J ⟨J.print w, b, true⟩ = .ok x ∧ fromJson J x = ⟨J.print w, hasSecure w, true⟩ :=
  ⟨w, by simp [toJson, decode, hJ w], fromJson_obj w h1 h2 h3⟩

/-- **C187.** A configuration is read as it was written: for every key the value it had. -/
theorem map_round_trips {J : Codec} (hJ : Faithful J) (m : Map) (hnd : (m.map (·.1)).Nodup)
    (hk : ∀ kv ∈ m, NoColon kv.1.ns ∧ NoColon kv.1.name) (hv : ∀ kv ∈ m, Consistent J kv.2) :
    ∃ kvs m', m.marshal J = .ok kvs ∧ Map.unmarshal J kvs = .ok m' ∧ ∀ k, find k m' = find k m := by
  induction m with
  | nil => exact ⟨[], [], rfl, rfl, fun _ => rfl⟩
  | cons kv m ih =>
    obtain ⟨k, v⟩ := kv
    obtain ⟨kvs, m', h1, h2, h3⟩ := ih (List.nodup_cons.1 hnd).2 (fun x hx => hk x (.tail _ hx)) (fun x hx => hv x (.tail _ hx))
    obtain ⟨w, h4, h5⟩ := value_round_trips hJ v (hv _ (.head _))
    have hkey := (key_round_trips_iff k (hk _ (.head _)).1).2 (hk _ (.head _)).2
    refine ⟨(k.text, w) :: kvs, put k v m', ?_, ?_, fun q => ?_⟩
    · simp only [Map.marshal, bind, Except.bind, h4, h1, pure, Except.pure]
    · simp only [Map.unmarshal, bind, Except.bind, hkey, h2, h5, pure, Except.pure]
    · by_cases h : k = q
      · subst h
        rw [find_put_same, find, if_pos rfl]
      · rw [find_put_other (fun e => h e.symm), h3, find, if_neg h]

/-- Reading a configuration fails if one of its keys does not parse. -/
theorem unmarshal_needs_keys {J : Codec} (kvs : List (String × W)) (s : String) (w : W) (h : (s, w) ∈ kvs) {e : Err}
    (he : parseKey s = .error e) (m : Map) : Map.unmarshal J kvs ≠ .ok m := by
  induction kvs generalizing m with
  | nil => cases h
  | cons kv kvs ih =>
    obtain ⟨s', w'⟩ := kv
    intro hm
    simp only [Map.unmarshal, bind, Except.bind] at hm
    cases h1 : parseKey s' with
    | error e => rw [h1] at hm; cases hm
    | ok k =>
      rw [h1] at hm
      simp only at hm
      cases h2 : Map.unmarshal J kvs with
      | error e => rw [h2] at hm; cases hm
      | ok m0 =>
        cases h with
        | head => rw [he] at h1; cases h1
        | tail _ h => exact ih h m0 h2

/-! ## Decrypting -/

mutual
theorem decrypt_plain (dec : String → Except Err String) : ∀ w : W, hasSecure w = false → decryptObject dec w = .ok w
  | .struct kvs, h => by
    rw [hasSecure, Bool.or_eq_false_iff] at h
    rw [decryptObject, decryptKvs_plain dec kvs h.2]
    rfl
  | .list ws, h => by
    rw [hasSecure] at h
    rw [decryptObject, decryptList_plain dec ws h]
    rfl
  | .null, _ => rfl
  | .bool _, _ => rfl
  | .num _, _ => rfl
  | .str _, _ => rfl
theorem decryptList_plain (dec : String → Except Err String) : ∀ ws : List W, hasSecureList ws = false → decryptList dec ws = .ok ws
  | [], _ => rfl
  | w :: ws, h => by
    rw [hasSecureList, Bool.or_eq_false_iff] at h
    have hs : isSecure w = none := by
      cases hs : isSecure w with
      | none => rfl
      | some s =>
        rw [isSecure_some hs] at h
        simp [hasSecure, isSecure] at h
    simp only [decryptList, hs, bind, Except.bind, decrypt_plain dec w h.1, decryptList_plain dec ws h.2, pure, Except.pure]
theorem decryptKvs_plain (dec : String → Except Err String) :
    ∀ kvs : List (String × W), hasSecureKvs kvs = false → decryptKvs dec kvs = .ok kvs
  | [], _ => rfl
  | (k, w) :: ws, h => by
    rw [hasSecureKvs, Bool.or_eq_false_iff] at h
    have hs : isSecure w = none := by
      cases hs : isSecure w with
      | none => rfl
      | some s =>
        rw [isSecure_some hs] at h
        simp [hasSecure, isSecure] at h
    simp only [decryptKvs, hs, bind, Except.bind, decrypt_plain dec w h.1, decryptKvs_plain dec ws h.2, pure, Except.pure]
end

/-- What becomes of a member when an object is decrypted. -/
def member (dec : String → Except Err String) (w : W) : Except Err W :=
  match isSecure w with
  | some c => (dec c).map .str
  | none => decryptObject dec w

theorem decryptList_cons (dec : String → Except Err String) (w : W) (ws : List W) :
    decryptList dec (w :: ws) = (do let x ← member dec w; let xs ← decryptList dec ws; return x :: xs) := by
  rw [decryptList, member]
  cases isSecure w <;> rfl

theorem decryptKvs_cons (dec : String → Except Err String) (k : String) (w : W) (ws : List (String × W)) :
    decryptKvs dec ((k, w) :: ws) = (do let x ← member dec w; let xs ← decryptKvs dec ws; return (k, x) :: xs) := by
  rw [decryptKvs, member]
  cases isSecure w <;> rfl

theorem decryptList_get {dec : String → Except Err String} {ws xs : List W} (h : decryptList dec ws = .ok xs) :
    xs.length = ws.length ∧ ∀ (i : Nat) w, ws[i]? = some w → ∃ x, xs[i]? = some x ∧ member dec w = .ok x := by
  induction ws generalizing xs with
  | nil =>
    cases h
    exact ⟨rfl, fun i w hw => by cases hw⟩
  | cons w ws ih =>
    have h' := h
    rw [decryptList_cons] at h'
    simp only [bind, Except.bind] at h'
    cases h1 : member dec w with
    | error e => rw [h1] at h'; cases h'
    | ok x =>
      rw [h1] at h'
      simp only at h'
      cases h2 : decryptList dec ws with
      | error e => rw [h2] at h'; cases h'
      | ok xs' =>
        rw [h2] at h'
        cases h'
        obtain ⟨hl, hg⟩ := ih h2
        refine ⟨by simp [hl], fun i w' hw => ?_⟩
        cases i with
        | zero =>
          simp only [List.getElem?_cons_zero, Option.some.injEq] at hw
          subst hw
          exact ⟨x, rfl, h1⟩
        | succ i => exact hg i w' (by simpa using hw)

theorem decryptKvs_get {dec : String → Except Err String} {ws xs : List (String × W)} (h : decryptKvs dec ws = .ok xs) :
    xs.map (·.1) = ws.map (·.1) ∧ ∀ k w, find k ws = some w → ∃ x, find k xs = some x ∧ member dec w = .ok x := by
  induction ws generalizing xs with
  | nil =>
    cases h
    exact ⟨rfl, fun i w hw => by cases hw⟩
  | cons kw ws ih =>
    obtain ⟨k, w⟩ := kw
    have h' := h
    rw [decryptKvs_cons] at h'
    simp only [bind, Except.bind] at h'
    cases h1 : member dec w with
    | error e => rw [h1] at h'; cases h'
    | ok x =>
      rw [h1] at h'
      simp only at h'
      cases h2 : decryptKvs dec ws with
      | error e => rw [h2] at h'; cases h'
      | ok xs' =>
        rw [h2] at h'
        cases h'
        obtain ⟨hl, hg⟩ := ih h2
        refine ⟨by simp [hl], fun k' w' hw => ?_⟩
        rw [find] at hw ⊢
        by_cases hk : k = k'
        · rw [if_pos hk] at hw ⊢
          cases hw
          exact ⟨x, rfl, h1⟩
        · rw [if_neg hk] at hw ⊢
          exact hg k' w' hw

theorem decrypt_at {dec : String → Except Err String} {w w' x : W} {p : Path} (ha : At w p w') (h : decryptObject dec w = .ok x) :
    (p = [] ∧ w' = w) ∨ ∃ x', At w p w' ∧ getForPath x p = some x' ∧ member dec w' = .ok x' := by
  induction ha generalizing x with
  | here w => exact .inl ⟨rfl, rfl⟩
  | @idx ws i y q w' hi hy ih =>
    right
    rw [decryptObject] at h
    cases hd : decryptList dec ws with
    | error e => rw [hd] at h; cases h
    | ok xs =>
      rw [hd] at h
      cases h
      obtain ⟨z, hz1, hz2⟩ := (decryptList_get hd).2 i y hi
      have hstep : step (.list xs) (.idx (i : Int)) = some z := by
        rw [step, if_neg (by omega), Int.toNat_natCast]
        exact hz1
      rw [getForPath_cons, hstep, Option.bind_some]
      by_cases hq : q = []
      · subst hq
        cases hy
        exact ⟨z, .idx hi (.here _), rfl, hz2⟩
      · have hm : decryptObject dec y = .ok z := by
          have hs : isSecure y = none := by
            cases hy with
            | here => exact absurd rfl hq
            | idx => rfl
            | key _ h _ => exact h
          rw [← hz2, member, hs]
        rcases ih hm with ⟨e, _⟩ | ⟨x', h1, h2, h3⟩
        · exact absurd e hq
        · exact ⟨x', .idx hi h1, h2, h3⟩
  | @key kvs k y q w' hi hns hy ih =>
    right
    rw [decryptObject] at h
    cases hd : decryptKvs dec kvs with
    | error e => rw [hd] at h; cases h
    | ok xs =>
      rw [hd] at h
      cases h
      rw [← find_eq_lookup] at hi
      obtain ⟨z, hz1, hz2⟩ := (decryptKvs_get hd).2 _ y hi
      have hstep : step (.struct xs) (.name k) = some z := hz1
      rw [getForPath_cons, hstep, Option.bind_some]
      rw [find_eq_lookup] at hi
      by_cases hq : q = []
      · subst hq
        cases hy
        exact ⟨z, .key hi hns (.here _), rfl, hz2⟩
      · have hm : decryptObject dec y = .ok z := by
          have hs : isSecure y = none := by
            cases hy with
            | here => exact absurd rfl hq
            | idx => rfl
            | key _ h _ => exact h
          rw [← hz2, member, hs]
        rcases ih hm with ⟨e, _⟩ | ⟨x', h1, h2, h3⟩
        · exact absurd e hq
        · exact ⟨x', .key hi hns h1, h2, h3⟩

/-- **C188.** Where there is a secret in an object, at whatever depth, its text is there once the object is decrypted. -/
theorem secrets_are_decrypted {dec : String → Except Err String} {w x : W} (h : decryptObject dec w = .ok x) (p : Path) (hp : p ≠ [])
    (c : String) (ha : At w p (.struct [("secure", .str c)])) : ∃ t, dec c = .ok t ∧ getForPath x p = some (.str t) := by
  rcases decrypt_at ha h with ⟨e, _⟩ | ⟨x', _, h2, h3⟩
  · exact absurd e hp
  · have hs : isSecure (.struct [("secure", .str c)]) = some c := by simp [isSecure]
    rw [member, hs] at h3
    simp only at h3
    cases hd : dec c with
    | error e => rw [hd] at h3; cases h3
    | ok t =>
      rw [hd] at h3
      cases h3
      exact ⟨t, rfl, h2⟩

/-- **C188.** Whatever has no secret in it is in the object as it was, at whatever depth, once the object is decrypted. -/
theorem the_rest_is_kept {dec : String → Except Err String} {w x : W} (h : decryptObject dec w = .ok x) (p : Path)
    (w' : W) (ha : At w p w') (hs : hasSecure w' = false) : getForPath x p = some w' := by
  rcases decrypt_at ha h with ⟨rfl, rfl⟩ | ⟨x', _, h2, h3⟩
  · rw [decrypt_plain dec w' hs] at h
    cases h
    rfl
  · have hi : isSecure w' = none := by
      cases hi : isSecure w' with
      | none => rfl
      | some s =>
        rw [isSecure_some hi] at hs
        simp [hasSecure, isSecure] at hs
    rw [member, hi] at h3
    simp only at h3
    rw [decrypt_plain dec w' hs] at h3
    cases h3
    exact h2

/-- **C188.** Decrypting adds no member to an object and no element to a list, and takes none away. -/
theorem the_shape_is_kept {dec : String → Except Err String} {w x : W} (h : decryptObject dec w = .ok x) (p : Path) :
    (∀ ws, At w p (.list ws) → ∃ xs, getForPath x p = some (.list xs) ∧ xs.length = ws.length) ∧
    (∀ kvs, At w p (.struct kvs) → (∀ s, kvs ≠ [("secure", .str s)]) →
      ∃ xs, getForPath x p = some (.struct xs) ∧ xs.map (·.1) = kvs.map (·.1)) := by
  have key : ∀ w', At w p w' → isSecure w' = none → ∃ x', getForPath x p = some x' ∧ decryptObject dec w' = .ok x' := by
    intro w' ha hs
    rcases decrypt_at ha h with ⟨rfl, rfl⟩ | ⟨x', _, h2, h3⟩
    · exact ⟨x, rfl, h⟩
    · rw [member, hs] at h3
      exact ⟨x', h2, h3⟩
  constructor
  · intro ws ha
    obtain ⟨x', h1, h2⟩ := key _ ha rfl
    rw [decryptObject] at h2
    cases hd : decryptList dec ws with
    | error e => rw [hd] at h2; cases h2
    | ok xs =>
      rw [hd] at h2
      cases h2
      exact ⟨xs, h1, (decryptList_get hd).1⟩
  · intro kvs ha hn
    have hs : isSecure (.struct kvs) = none := by
      cases hs : isSecure (.struct kvs) with
      | none => rfl
      | some s =>
        have := isSecure_some hs
        simp only [W.struct.injEq] at this
        exact absurd this (hn s)
    obtain ⟨x', h1, h2⟩ := key _ ha hs
    rw [decryptObject] at h2
    cases hd : decryptKvs dec kvs with
    | error e => rw [hd] at h2; cases h2
    | ok xs =>
      rw [hd] at h2
      cases h2
      exact ⟨xs, h1, (decryptKvs_get hd).1⟩

/-! ## Copying -/

/-- What becomes of a member when an object is encrypted anew. -/
def remember {σ : Type} (dec : String → Except Err String) (enc : Encrypter σ) (w : W) (s : σ) : Except Err (W × σ) :=
  match isSecure w with
  | some c => do
    let raw ← dec c
    let (e, s) ← enc raw s
    pure (secureW e, s)
  | none => reencryptObject dec enc w s

theorem reencrypt_str {σ : Type} {dec : String → Except Err String} {enc : Encrypter σ} {w : W} {s s' : σ} {t : String}
    (h : reencryptObject dec enc w s = .ok (.str t, s')) : w = .str t := by
  cases w with
  | struct kvs =>
    rw [reencryptObject] at h
    cases hd : reencryptKvs dec enc kvs s <;> rw [hd] at h <;> cases h
  | list ws =>
    rw [reencryptObject] at h
    cases hd : reencryptList dec enc ws s <;> rw [hd] at h <;> cases h
  | str u => cases h; rfl
  | null => cases h
  | bool b => cases h
  | num n => cases h

theorem remember_str {σ : Type} {dec : String → Except Err String} {enc : Encrypter σ} {w : W} {s s' : σ} {t : String}
    (h : remember dec enc w s = .ok (.str t, s')) : w = .str t := by
  unfold remember at h
  split at h
  · rename_i c _
    simp only [bind, Except.bind] at h
    cases h1 : dec c with
    | error e => rw [h1] at h; cases h
    | ok raw =>
      rw [h1] at h
      simp only at h
      cases h2 : enc raw s with
      | error e => rw [h2] at h; cases h
      | ok r => rw [h2] at h; cases h
  · exact reencrypt_str h

theorem reencryptKvs_cons {σ : Type} {dec : String → Except Err String} {enc : Encrypter σ} {k : String} {w : W}
    {kvs : List (String × W)} {s : σ} {xs : List (String × W)} {s' : σ} (h : reencryptKvs dec enc ((k, w) :: kvs) s = .ok (xs, s')) :
    ∃ x s1 xs', remember dec enc w s = .ok (x, s1) ∧ reencryptKvs dec enc kvs s1 = .ok (xs', s') ∧ xs = (k, x) :: xs' := by
  have h' : (do let (x, s) ← remember dec enc w s; let (xs, s) ← reencryptKvs dec enc kvs s; return ((k, x) :: xs, s)) =
    Except.ok (xs, s') := by
    rw [← h, reencryptKvs, remember]
    cases isSecure w with
    | none => rfl
    | some c =>
      simp only [bind, Except.bind]
      cases dec c with
      | error e => rfl
      | ok raw =>
        simp only
        cases enc raw s <;> rfl
  simp only [bind, Except.bind] at h'
  cases h1 : remember dec enc w s with
  | error e => rw [h1] at h'; cases h'
  | ok r =>
    obtain ⟨x, s1⟩ := r
    rw [h1] at h'
    simp only at h'
    cases h2 : reencryptKvs dec enc kvs s1 with
    | error e => rw [h2] at h'; cases h'
    | ok r =>
      obtain ⟨xs', s2⟩ := r
      rw [h2] at h'
      cases h'
      exact ⟨x, s1, xs', rfl, h2, rfl⟩

theorem reencryptList_cons {σ : Type} {dec : String → Except Err String} {enc : Encrypter σ} {w : W}
    {kvs : List W} {s : σ} {xs : List W} {s' : σ} (h : reencryptList dec enc (w :: kvs) s = .ok (xs, s')) :
    ∃ x s1 xs', remember dec enc w s = .ok (x, s1) ∧ reencryptList dec enc kvs s1 = .ok (xs', s') ∧ xs = x :: xs' := by
  have h' : (do let (x, s) ← remember dec enc w s; let (xs, s) ← reencryptList dec enc kvs s; return (x :: xs, s)) =
    Except.ok (xs, s') := by
    rw [← h, reencryptList, remember]
    cases isSecure w with
    | none => rfl
    | some c =>
      simp only [bind, Except.bind]
      cases dec c with
      | error e => rfl
      | ok raw =>
        simp only
        cases enc raw s <;> rfl
  simp only [bind, Except.bind] at h'
  cases h1 : remember dec enc w s with
  | error e => rw [h1] at h'; cases h'
  | ok r =>
    obtain ⟨x, s1⟩ := r
    rw [h1] at h'
    simp only at h'
    cases h2 : reencryptList dec enc kvs s1 with
    | error e => rw [h2] at h'; cases h'
    | ok r =>
      obtain ⟨xs', s2⟩ := r
      rw [h2] at h'
      cases h'
      exact ⟨x, s1, xs', rfl, h2, rfl⟩

/-- What is not a secret does not become one. -/
theorem reencrypt_insecure {σ : Type} {dec : String → Except Err String} {enc : Encrypter σ} {w x : W} {s s' : σ}
    (h : reencryptObject dec enc w s = .ok (x, s')) (hs : isSecure w = none) : isSecure x = none := by
  cases hx : isSecure x with
  | none => rfl
  | some c =>
    exfalso
    cases isSecure_some hx
    cases w with
    | struct kvs =>
      rw [reencryptObject] at h
      cases hd : reencryptKvs dec enc kvs s with
      | error e => rw [hd] at h; cases h
      | ok r =>
        obtain ⟨xs, s1⟩ := r
        rw [hd] at h
        simp only [Except.map, Except.ok.injEq, Prod.mk.injEq, W.struct.injEq] at h
        obtain ⟨rfl, rfl⟩ := h
        cases kvs with
        | nil => cases hd
        | cons kw kvs =>
          obtain ⟨k, w⟩ := kw
          obtain ⟨y, s2, ys, h1, h2, h3⟩ := reencryptKvs_cons hd
          simp only [List.cons.injEq, Prod.mk.injEq] at h3
          obtain ⟨⟨rfl, rfl⟩, rfl⟩ := h3
          cases kvs with
          | nil =>
            rw [remember_str h1] at hs
            simp [isSecure] at hs
          | cons kw kvs =>
            obtain ⟨k, w⟩ := kw
            obtain ⟨_, _, _, _, _, e⟩ := reencryptKvs_cons h2
            cases e
    | list ws =>
      rw [reencryptObject] at h
      cases hd : reencryptList dec enc ws s <;> rw [hd] at h <;> cases h
    | str u => cases h
    | null => cases h
    | bool b => cases h
    | num n => cases h

variable {σ : Type} {I : σ → Prop}

mutual
theorem reencrypt_opens {dec dec' : String → Except Err String} {enc : Encrypter σ} (ho : Opens I enc dec') :
    ∀ (w : W) {x : W} {s s' : σ}, I s → reencryptObject dec enc w s = .ok (x, s') →
      decryptObject dec' x = decryptObject dec w ∧ I s'
  | .struct kvs, x, s, s', hI, h => by
    rw [reencryptObject] at h
    cases hd : reencryptKvs dec enc kvs s with
    | error e => rw [hd] at h; cases h
    | ok r =>
      rw [hd] at h
      cases h
      obtain ⟨h1, h2⟩ := reencryptKvs_opens ho kvs hI hd
      refine ⟨?_, h2⟩
      simp only [decryptObject, h1]
  | .list ws, x, s, s', hI, h => by
    rw [reencryptObject] at h
    cases hd : reencryptList dec enc ws s with
    | error e => rw [hd] at h; cases h
    | ok r =>
      rw [hd] at h
      cases h
      obtain ⟨h1, h2⟩ := reencryptList_opens ho ws hI hd
      refine ⟨?_, h2⟩
      simp only [decryptObject, h1]
  | .null, x, s, s', hI, h => by cases h; exact ⟨rfl, hI⟩
  | .bool b, x, s, s', hI, h => by cases h; exact ⟨rfl, hI⟩
  | .num n, x, s, s', hI, h => by cases h; exact ⟨rfl, hI⟩
  | .str t, x, s, s', hI, h => by cases h; exact ⟨rfl, hI⟩
theorem remember_opens {dec dec' : String → Except Err String} {enc : Encrypter σ} (ho : Opens I enc dec') :
    ∀ (w : W) {x : W} {s s' : σ}, I s → remember dec enc w s = .ok (x, s') → member dec' x = member dec w ∧ I s'
  | w, x, s, s', hI, h => by
    cases hs : isSecure w with
    | none =>
      rw [remember, hs] at h
      simp only at h
      obtain ⟨h1, h2⟩ := reencrypt_opens ho w hI h
      refine ⟨?_, h2⟩
      rw [member, member, hs, reencrypt_insecure h hs]
      exact h1
    | some c =>
      rw [remember, hs] at h
      simp only [bind, Except.bind] at h
      cases h1 : dec c with
      | error e => rw [h1] at h; cases h
      | ok raw =>
        rw [h1] at h
        simp only at h
        cases h2 : enc raw s with
        | error e => rw [h2] at h; cases h
        | ok r =>
          obtain ⟨e, s1⟩ := r
          rw [h2] at h
          cases h
          obtain ⟨h3, h4⟩ := ho _ _ _ _ hI h2
          refine ⟨?_, h4⟩
          have : isSecure (secureW e) = some e := by simp [secureW, isSecure]
          rw [member, member, hs, this]
          simp only [h3, h1]
theorem reencryptList_opens {dec dec' : String → Except Err String} {enc : Encrypter σ} (ho : Opens I enc dec') :
    ∀ (ws : List W) {xs : List W} {s s' : σ}, I s → reencryptList dec enc ws s = .ok (xs, s') →
      decryptList dec' xs = decryptList dec ws ∧ I s'
  | [], xs, s, s', hI, h => by cases h; exact ⟨rfl, hI⟩
  | w :: ws, xs, s, s', hI, h => by
    obtain ⟨x, s1, xs', h1, h2, rfl⟩ := reencryptList_cons h
    obtain ⟨h3, h4⟩ := remember_opens ho w hI h1
    obtain ⟨h5, h6⟩ := reencryptList_opens ho ws h4 h2
    refine ⟨?_, h6⟩
    rw [decryptList_cons, decryptList_cons, h3, h5]
theorem reencryptKvs_opens {dec dec' : String → Except Err String} {enc : Encrypter σ} (ho : Opens I enc dec') :
    ∀ (ws : List (String × W)) {xs : List (String × W)} {s s' : σ}, I s → reencryptKvs dec enc ws s = .ok (xs, s') →
      decryptKvs dec' xs = decryptKvs dec ws ∧ I s'
  | [], xs, s, s', hI, h => by cases h; exact ⟨rfl, hI⟩
  | (k, w) :: ws, xs, s, s', hI, h => by
    obtain ⟨x, s1, xs', h1, h2, rfl⟩ := reencryptKvs_cons h
    obtain ⟨h3, h4⟩ := remember_opens ho w hI h1
    obtain ⟨h5, h6⟩ := reencryptKvs_opens ho ws h4 h2
    refine ⟨?_, h6⟩
    rw [decryptKvs_cons, decryptKvs_cons, h3, h5]
end

theorem copy_opens {J : Codec} (hJ : Faithful J) {f f' : String → Except Err String} {enc : Encrypter σ} (ho : Opens I enc f')
    (v v' : Value) (s s' : σ) (hI : I s) (h : v.copy J (.real f) enc s = .ok (v', s')) :
    (v'.read J (some (.real f')) = v.read J (some (.real f)) ∧ v'.secure = v.secure ∧ v'.object = v.object) ∧ I s' := by
  obtain ⟨value, secure, object⟩ := v
  unfold Value.copy at h
  cases secure with
  | false =>
    simp only [Value.read, Bool.not_false, if_true, bind, Except.bind, pure, Except.pure, Bool.false_eq_true, if_false] at h
    cases h
    exact ⟨⟨rfl, rfl, rfl⟩, hI⟩
  | true =>
    cases object with
    | false =>
      simp only [Value.read, Bool.not_true, Bool.false_eq_true, if_false, bind, Except.bind, if_true] at h
      cases h1 : f value with
      | error e => rw [h1] at h; cases h
      | ok raw =>
        rw [h1] at h
        simp only at h
        cases h2 : enc raw s with
        | error e => rw [h2] at h; cases h
        | ok r =>
          obtain ⟨e, s1⟩ := r
          rw [h2] at h
          cases h
          obtain ⟨h3, h4⟩ := ho _ _ _ _ hI h2
          exact ⟨⟨by simp [Value.read, h3, h1], rfl, rfl⟩, h4⟩
    | true =>
      simp only [bind, Except.bind, if_true] at h
      cases h0 : Value.read J ⟨value, true, true⟩ (some (.real f)) with
      | error e => rw [h0] at h; cases h
      | ok raw =>
        rw [h0] at h
        simp only [Value.toObject, if_true] at h
        cases h1 : decode J value with
        | error e => rw [h1] at h; cases h
        | ok obj =>
          rw [h1] at h
          simp only at h
          cases h2 : reencryptObject f enc obj s with
          | error e =>
            have h2' : reencryptObject (Decrypter.real f).decrypt enc obj s = .error e := h2
            first
              | (rw [h2] at h; cases h)
              | (rw [h2'] at h; cases h)
          | ok r =>
            obtain ⟨x, s1⟩ := r
            have h2' : reencryptObject (Decrypter.real f).decrypt enc obj s = .ok (x, s1) := h2
            first
              | rw [h2] at h
              | rw [h2'] at h
            cases h
            obtain ⟨h3, h4⟩ := reencrypt_opens ho obj hI h2
            refine ⟨⟨?_, rfl, rfl⟩, h4⟩
            rw [← h0]
            have hx : decode J (J.print x) = .ok x := by simp [decode, hJ x]
            simp only [Value.read, Bool.not_true, Bool.false_eq_true, if_false, if_true, bind, Except.bind, hx, h1, h3]

/-- **C188.** A value that has been copied to other keys reads there as it read before. -/
theorem copied_values_read_the_same {J : Codec} (hJ : Faithful J) {f f' : String → Except Err String} {enc : Encrypter σ}
    (ho : Opens I enc f') (v v' : Value) (s s' : σ) (hI : I s) (h : v.copy J (.real f) enc s = .ok (v', s')) :
    v'.read J (some (.real f')) = v.read J (some (.real f)) ∧ v'.secure = v.secure ∧ v'.object = v.object :=
  (copy_opens hJ ho v v' s s' hI h).1

/-- **C188.** A configuration that has been copied to other keys decrypts as it did before. -/
theorem copied_configuration_decrypts_the_same {J : Codec} (hJ : Faithful J) {f f' : String → Except Err String} {enc : Encrypter σ}
    (ho : Opens I enc f') (m m' : Map) (s s' : σ) (hI : I s) (h : m.copy J (.real f) enc s = .ok (m', s')) :
    m'.decrypt J (some (.real f')) = m.decrypt J (some (.real f)) ∧ m'.map (·.1) = m.map (·.1) ∧
      m'.map (·.2.secure) = m.map (·.2.secure) := by
  induction m generalizing m' s s' with
  | nil => cases h; exact ⟨rfl, rfl, rfl⟩
  | cons kv m ih =>
    obtain ⟨k, v⟩ := kv
    simp only [Map.copy, bind, Except.bind] at h
    cases h1 : v.copy J (.real f) enc s with
    | error e => rw [h1] at h; cases h
    | ok r =>
      obtain ⟨v', s1⟩ := r
      rw [h1] at h
      simp only at h
      cases h2 : Map.copy J (.real f) enc m s1 with
      | error e => rw [h2] at h; cases h
      | ok r =>
        obtain ⟨m0, s2⟩ := r
        rw [h2] at h
        cases h
        obtain ⟨⟨h3, h4, _⟩, h5⟩ := copy_opens hJ ho v v' s s1 hI h1
        obtain ⟨h6, h7, h8⟩ := ih m0 s1 s2 h5 h2
        refine ⟨?_, by simp [h7], by simp [h4, h8]⟩
        simp only [Map.decrypt, h3, h6]

/-- **C188.** A configuration without secrets needs no key: it is decrypted without one, to the texts of its values. -/
theorem plain_configuration_needs_no_key (J : Codec) (m : Map) (h : m.hasSecureValue = false) (dec : Option Decrypter) :
    m.decrypt J dec = .ok (m.map fun kv => (kv.1, kv.2.value)) := by
  induction m with
  | nil => rfl
  | cons kv m ih =>
    obtain ⟨k, v⟩ := kv
    simp only [Map.hasSecureValue, List.any_cons, Bool.or_eq_false_iff] at h
    have hr : v.read J dec = .ok v.value := by simp [Value.read, h.1]
    simp only [Map.decrypt, hr, bind, Except.bind, ih h.2, pure, Except.pure, List.map_cons]

end Pulumi.ConfigMap
