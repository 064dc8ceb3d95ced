import Verif.Secrets.Model
/-!
# What is kept under a passphrase comes back with it, and only with it (C205, C206)
-/
namespace Pulumi.Secrets

/-! ## What is said of ciphers -/

/-- What has been encrypted can be decrypted with the same key. -/
def Cipher.Opens (C : Cipher) : Prop := ∀ k n t, C.unlock k n (C.shut k n t) = some t

/-- What has been encrypted with one key cannot be decrypted with another. -/
def Cipher.Authentic (C : Cipher) : Prop := ∀ k k' n t u, C.unlock k' n (C.shut k n t) = some u → k' = k

/-! ## Texts -/

theorem cut_append {c : Char} {a b : Text} (h : c ∉ a) : cut c (a ++ c :: b) = some (a, b) := by
  induction a with
  | nil => simp [cut]
  | cons x l ih =>
    have hx : x ≠ c := fun e => h (e ▸ List.mem_cons_self)
    simp only [List.cons_append, cut, if_neg hx]
    rw [ih fun hm => h (List.mem_cons_of_mem _ hm)]
    rfl

theorem cut_some {c : Char} {t a b : Text} (h : cut c t = some (a, b)) : t = a ++ c :: b ∧ c ∉ a := by
  induction t generalizing a with
  | nil => cases h
  | cons x l ih =>
    unfold cut at h
    split at h
    · rename_i hx
      cases h; simp [hx]
    · rename_i hx
      obtain ⟨⟨a', b'⟩, h1, h2⟩ := Option.map_eq_some_iff.mp h
      cases h2
      obtain ⟨h3, h4⟩ := ih h1
      exact ⟨by simp [h3], by simp [h4, Ne.symm hx]⟩

theorem split_ne_nil (c : Char) (t : Text) : split c t ≠ [] := by
  cases t with
  | nil => simp [split]
  | cons x l =>
    unfold split
    split
    · simp
    · split <;> simp

theorem split_append {c : Char} {a b : Text} (h : c ∉ a) : split c (a ++ c :: b) = a :: split c b := by
  induction a with
  | nil => simp [split]
  | cons x l ih =>
    have hx : x ≠ c := fun e => h (e ▸ List.mem_cons_self)
    simp only [List.cons_append, split, if_neg hx]
    rw [ih fun hm => h (List.mem_cons_of_mem _ hm)]

theorem split_single {c : Char} {a : Text} (h : c ∉ a) : split c a = [a] := by
  induction a with
  | nil => rfl
  | cons x l ih =>
    have hx : x ≠ c := fun e => h (e ▸ List.mem_cons_self)
    simp only [split, if_neg hx]
    rw [ih fun hm => h (List.mem_cons_of_mem _ hm)]

theorem splitN_three {t a b d : Text} (h : splitN ':' 3 t = [a, b, d]) : t = a ++ ':' :: (b ++ ':' :: d) ∧ ':' ∉ a ∧ ':' ∉ b := by
  unfold splitN at h
  cases h1 : cut ':' t with
  | none => rw [h1] at h; cases h
  | some p =>
    obtain ⟨x, y⟩ := p
    rw [h1] at h
    simp only [splitN] at h
    cases h2 : cut ':' y with
    | none => rw [h2] at h; cases h
    | some q =>
      obtain ⟨z, w⟩ := q
      rw [h2] at h
      cases h
      obtain ⟨e1, e2⟩ := cut_some h1
      obtain ⟨e3, e4⟩ := cut_some h2
      exact ⟨by rw [e1, e3], e2, e4⟩

theorem splitN_append {a b d : Text} (ha : ':' ∉ a) (hb : ':' ∉ b) : splitN ':' 3 (a ++ ':' :: (b ++ ':' :: d)) = [a, b, d] := by
  simp [splitN, cut_append ha, cut_append hb]

/-- What stands behind the second colon is what is cut off there. -/
theorem after_second {a b d : Text} (ha : ':' ∉ a) (hb : ':' ∉ b) :
    (a ++ ':' :: (b ++ ':' :: d)).drop (indexN (a ++ ':' :: (b ++ ':' :: d)) ':' 2 + 1).toNat = d := by
  unfold indexN
  simp only [scratch, cut_append ha, cut_append hb]
  have : ((a ++ ':' :: (b ++ ':' :: d)).length - ((d.length : Int) + 1) + 1).toNat = (a ++ ':' :: (b ++ [':'])).length := by
    simp only [List.length_append, List.length_cons, List.length_nil]
    omega
  rw [this]
  have e : a ++ ':' :: (b ++ ':' :: d) = (a ++ ':' :: (b ++ [':'])) ++ d := by simp
  rw [e, List.drop_left]

theorem colon_notin_v1 : ':' ∉ v1 := by decide

/-! ## Values (C205) -/

/-- **C205** What is encrypted comes back. -/
theorem decrypt_encrypt {C : Cipher} (h : C.Opens) (k : C.Key) {nonce : List Byte} (hn : nonce.length = 12) (t : Text) : decryptValue C k (encryptValue C k nonce t) = .ok t := by
  unfold decryptValue encryptValue
  rw [split_append colon_notin_v1, split_append (colon_notin_encode _), split_single (colon_notin_encode _)]
  simp [decode_encode, hn, h k nonce t]

/-- **C205** Nothing else comes out of it: if decrypting a value that a key has encrypted gives something, it is with that key and gives what was encrypted. -/
theorem decrypts_only_own {C : Cipher} (h : C.Opens) (ha : C.Authentic) {k k' : C.Key} {nonce : List Byte} (hn : nonce.length = 12) {t u : Text} (hd : decryptValue C k' (encryptValue C k nonce t) = .ok u) :
    k' = k ∧ u = t := by
  have hk : k' = k := by
    unfold decryptValue encryptValue at hd
    rw [split_append colon_notin_v1, split_append (colon_notin_encode _), split_single (colon_notin_encode _)] at hd
    simp only [ne_eq, not_true, if_false, decode_encode, hn] at hd
    cases hu : C.unlock k' nonce (C.shut k nonce t) with
    | none => rw [hu] at hd; simp at hd
    | some p => exact ha _ _ _ _ _ hu
  subst hk
  rw [decrypt_encrypt h k' hn] at hd
  simp only [Res.ok.injEq] at hd
  exact ⟨rfl, hd.symm⟩

/-- **C205** Only what has the form of an encrypted value is decrypted: the version, a nonce of 12 bytes and what the cipher opens. -/
theorem decrypts_only_values {C : Cipher} {k : C.Key} {t u : Text} (h : decryptValue C k t = .ok u) :
    ∃ n e nonce enc, t = v1 ++ ':' :: (n ++ ':' :: e) ∧ decode n = some nonce ∧ decode e = some enc ∧ nonce.length = 12 ∧ C.unlock k nonce enc = some u := by
  unfold decryptValue at h
  split at h
  · rename_i v n e hs
    split at h
    · cases h
    · rename_i hv
      have hv : v = v1 := Classical.byContradiction hv
      cases hn : decode n with
      | none => rw [hn] at h; cases h
      | some nonce =>
        cases he : decode e with
        | none => rw [hn, he] at h; cases h
        | some enc =>
          rw [hn, he] at h
          simp only at h
          split at h
          · cases h
          · rename_i hl
            cases hu : C.unlock k nonce enc with
            | none => rw [hu] at h; cases h
            | some p =>
              rw [hu] at h
              cases h
              refine ⟨n, e, nonce, enc, ?_, hn, he, Classical.byContradiction hl, hu⟩
              subst hv
              clear hn he hu hl
              have key : ∀ (c : Char) (t : Text) (p : Text) (ps : List Text), split c t = p :: ps → c ∉ p ∧ (ps = [] ∧ t = p ∨ ∃ r, t = p ++ c :: r ∧ split c r = ps) := by
                intro c t
                induction t with
                | nil => intro p ps h; cases h; exact ⟨by simp, .inl ⟨rfl, rfl⟩⟩
                | cons x l ih =>
                  intro p ps h
                  unfold split at h
                  split at h
                  · rename_i hx
                    cases h
                    exact ⟨by simp, .inr ⟨l, by simp [hx], rfl⟩⟩
                  · rename_i hx
                    cases hq : split c l with
                    | nil => exact absurd hq (split_ne_nil _ _)
                    | cons q qs =>
                      rw [hq] at h
                      cases h
                      obtain ⟨h1, h2⟩ := ih q _ hq
                      refine ⟨by simp [h1, Ne.symm hx], ?_⟩
                      rcases h2 with ⟨rfl, rfl⟩ | ⟨r, rfl, h3⟩
                      · exact .inl ⟨rfl, rfl⟩
                      · exact .inr ⟨r, rfl, h3⟩
              rcases (key _ _ _ _ hs).2 with ⟨h1, -⟩ | ⟨r, rfl, hr⟩
              · cases h1
              · rcases (key _ _ _ _ hr).2 with ⟨h1, -⟩ | ⟨r', rfl, hr'⟩
                · cases h1
                · rcases (key _ _ _ _ hr').2 with ⟨-, rfl⟩ | ⟨r'', rfl, hr''⟩
                  · rfl
                  · exact absurd hr'' (split_ne_nil _ _)
  · cases h

/-! ## Passphrases (C206) -/

theorem decrypt_ne_panic {C : Cipher} (k k' : C.Key) {nonce : List Byte} (hn : nonce.length = 12) (t : Text) : decryptValue C k' (encryptValue C k nonce t) ≠ .panic := by
  unfold decryptValue encryptValue
  rw [split_append colon_notin_v1, split_append (colon_notin_encode _), split_single (colon_notin_encode _)]
  simp only [ne_eq, not_true, if_false, decode_encode, hn]
  split <;> simp

theorem crypterFrom_newState (C : Cipher) (p q : Text) (salt nonce : List Byte) :
    crypterFrom C q (newState C p salt nonce) =
      match decryptValue C (C.key q salt) (encryptValue C (C.key p salt) nonce check) with
      | .panic => .panic
      | .ok t => if t = check then .ok (C.key q salt) else .incorrect
      | _ => .incorrect := by
  unfold crypterFrom newState
  rw [splitN_append colon_notin_v1 (colon_notin_encode _)]
  simp only [ne_eq, not_true, if_false, decode_encode]
  rw [after_second colon_notin_v1 (colon_notin_encode _)]
  rfl

/-- **C206** With the passphrase that a state was made with the state opens; with another, whose key is not the same, it does not. -/
theorem right_and_wrong {C : Cipher} (h : C.Opens) (ha : C.Authentic) (p q : Text) (salt : List Byte) {nonce : List Byte} (hn : nonce.length = 12) :
    crypterFrom C p (newState C p salt nonce) = .ok (C.key p salt) ∧
    (C.key q salt ≠ C.key p salt → crypterFrom C q (newState C p salt nonce) = .incorrect) := by
  refine ⟨?_, fun hne => ?_⟩
  · rw [crypterFrom_newState, decrypt_encrypt h _ hn]
    simp
  · rw [crypterFrom_newState]
    cases hd : decryptValue C (C.key q salt) (encryptValue C (C.key p salt) nonce check) with
    | ok t => exact absurd (decrypts_only_own h ha hn hd).1 hne
    | error => rfl
    | incorrect => rfl
    | panic => exact absurd hd (decrypt_ne_panic _ _ hn _)

/-- What is in the cache was put there by the right passphrase for its state. -/
def Sound {C : Cipher} (cache : Cache C) : Prop := ∀ s m, cache.lookup s = some m → m.state = s ∧ ∃ k p, m.key = some k ∧ crypterFrom C p s = .ok k

theorem newManager_spec {C : Cipher} {cache : Cache C} (hc : Sound cache) (p s : Text) :
    Sound (newManager C cache p s).1 ∧ (∀ s' m, cache.lookup s' = some m → (newManager C cache p s).1.lookup s' = some m) ∧
    ∀ m, (newManager C cache p s).2 = .ok m → m.state = s ∧ (∃ k q, m.key = some k ∧ crypterFrom C q s = .ok k) ∧ (newManager C cache p s).1.lookup s = some m := by
  unfold newManager
  cases hl : cache.lookup s with
  | some m =>
    refine ⟨hc, fun _ _ h => h, fun m' h => ?_⟩
    cases h
    exact ⟨(hc s m hl).1, (hc s m hl).2, hl⟩
  | none =>
    simp only
    cases hk : crypterFrom C p s with
    | ok k =>
      simp only
      refine ⟨fun s' m h => ?_, fun s' m h => ?_, fun m h => ?_⟩
      · rw [List.lookup_cons] at h
        split at h
        · rename_i he
          cases h
          exact ⟨(beq_iff_eq.mp he).symm, k, p, rfl, by rw [beq_iff_eq.mp he]; exact hk⟩
        · exact hc s' m h
      · rw [List.lookup_cons]
        split
        · rename_i he
          rw [beq_iff_eq.mp he, hl] at h; cases h
        · exact h
      · cases h
        exact ⟨rfl, ⟨k, p, rfl, hk⟩, by simp⟩
    | error => exact ⟨hc, fun _ _ h => h, fun m h => by cases h⟩
    | incorrect => exact ⟨hc, fun _ _ h => h, fun m h => by cases h⟩
    | panic => exact ⟨hc, fun _ _ h => h, fun m h => by cases h⟩

/-- What a call does to a cache that is sound, and what it says of the manager that it gives -/
structure Good {C : Cipher} (cache cache' : Cache C) (s : Text) (r : Res (Manager C)) : Prop where
  sound : Sound cache'
  keeps : ∀ s' m, cache.lookup s' = some m → cache'.lookup s' = some m
  right : ∀ m, r = .ok m → m.state = s ∧ ∃ k q, m.key = some k ∧ crypterFrom C q s = .ok k

theorem promptLoop_good {C : Cipher} {cache : Cache C} (hc : Sound cache) (s : Text) (l : List Text) :
    Good cache (promptLoop C cache s l).2.1 s (promptLoop C cache s l).2.2 := by
  induction l generalizing cache with
  | nil => exact ⟨hc, fun _ _ h => h, fun m h => by cases h⟩
  | cons p l ih =>
    have hn := newManager_spec hc p s
    unfold promptLoop
    generalize hm : newManager C cache p s = x at hn ⊢
    obtain ⟨cache', r⟩ := x
    simp only at hn
    cases r with
    | incorrect =>
      have := ih hn.1
      exact ⟨this.sound, fun s' m h => this.keeps s' m (hn.2.1 s' m h), this.right⟩
    | ok m => exact ⟨hn.1, hn.2.1, fun m' h => ⟨(hn.2.2 m' h).1, (hn.2.2 m' h).2.1⟩⟩
    | error => exact ⟨hn.1, hn.2.1, fun m' h => by cases h⟩
    | panic => exact ⟨hn.1, hn.2.1, fun m' h => by cases h⟩

theorem prompting_good {C : Cipher} {E : Env} {cache : Cache C} (hc : Sound cache) (s : Text) (l : List Text) :
    Good cache (prompting C E cache s l).2.1 s (prompting C E cache s l).2.2 := by
  unfold prompting
  cases hl : cache.lookup s with
  | some m =>
    refine ⟨hc, fun _ _ h => h, fun m' h => ?_⟩
    cases h
    exact hc s m hl
  | none =>
    simp only
    cases E.source true with
    | text p =>
      have hn := newManager_spec hc p s
      exact ⟨hn.1, hn.2.1, fun m' h => ⟨(hn.2.2 m' h).1, (hn.2.2 m' h).2.1⟩⟩
    | none => exact ⟨hc, fun _ _ h => h, fun m h => by cases h⟩
    | console => exact promptLoop_good hc s l

/-! ### Histories -/

/-- A call of one of the functions that give managers, with what is typed and drawn -/
inductive Call where
  | new (phrase state : Text)
  | prompting (E : Env) (state : Text) (lines : List Text)
  | fromState (E : Env) (state : Text) (lines : List Text)
  | forNew (E : Env) (rotate : Bool) (salt nonce : List Byte) (lines : List Text)

def withState {C : Cipher} (s : Text) : Cache C × Res (Manager C) → Cache C × Res (Text × Manager C)
  | (c, .ok m) => (c, .ok (s, m))
  | (c, _) => (c, .error)

/-- The cache after a call and the state and the manager that it gives -/
def Call.run {C : Cipher} (cache : Cache C) : Call → Cache C × Res (Text × Manager C)
  | .new p s => withState s (newManager C cache p s)
  | .prompting E s l => withState s (Secrets.prompting C E cache s l).2
  | .fromState E s l => withState s (Secrets.fromState C E cache s l).2
  | .forNew E rotate salt nonce l => (promptForNew C E cache rotate salt nonce l).2

/-- The cache after calls -/
def runCalls {C : Cipher} : Cache C → List Call → Cache C
  | cache, [] => cache
  | cache, c :: l => runCalls (c.run cache).1 l

theorem Call.run_spec {C : Cipher} {cache : Cache C} (hc : Sound cache) (c : Call) :
    Sound (c.run cache).1 ∧ ∀ s m, (c.run cache).2 = .ok (s, m) → m.state = s ∧ (m.key = none ∨ ∃ k q, m.key = some k ∧ crypterFrom C q s = .ok k) := by
  cases c with
  | new p s =>
    have hn := newManager_spec hc p s
    show Sound (withState s (newManager C cache p s)).1 ∧ ∀ s' m, (withState s (newManager C cache p s)).2 = .ok (s', m) → _
    generalize hm : newManager C cache p s = x at hn ⊢
    obtain ⟨cache', r⟩ := x
    simp only at hn ⊢
    cases r with
    | ok m =>
      refine ⟨hn.1, fun s' m' h => ?_⟩
      cases h
      exact ⟨(hn.2.2 m rfl).1, .inr (hn.2.2 m rfl).2.1⟩
    | error => exact ⟨hn.1, fun _ _ h => by cases h⟩
    | incorrect => exact ⟨hn.1, fun _ _ h => by cases h⟩
    | panic => exact ⟨hn.1, fun _ _ h => by cases h⟩
  | prompting E s l =>
    have hn := prompting_good (E := E) hc s l
    show Sound (withState s (Secrets.prompting C E cache s l).2).1 ∧ ∀ s' m, (withState s (Secrets.prompting C E cache s l).2).2 = .ok (s', m) → _
    generalize hm : Secrets.prompting C E cache s l = x at hn ⊢
    obtain ⟨l', cache', r⟩ := x
    simp only at hn ⊢
    cases r with
    | ok m =>
      refine ⟨hn.sound, fun s' m' h => ?_⟩
      cases h
      exact ⟨(hn.right m rfl).1, .inr (hn.right m rfl).2⟩
    | error => exact ⟨hn.sound, fun _ _ h => by cases h⟩
    | incorrect => exact ⟨hn.sound, fun _ _ h => by cases h⟩
    | panic => exact ⟨hn.sound, fun _ _ h => by cases h⟩
  | fromState E s l =>
    have hn := prompting_good (E := E) hc s l
    show Sound (withState s (Secrets.fromState C E cache s l).2).1 ∧ ∀ s' m, (withState s (Secrets.fromState C E cache s l).2).2 = .ok (s', m) → _
    unfold Secrets.fromState
    generalize hm : Secrets.prompting C E cache s l = x at hn ⊢
    obtain ⟨l', cache', r⟩ := x
    simp only at hn ⊢
    cases r with
    | ok m =>
      refine ⟨hn.sound, fun s' m' h => ?_⟩
      cases h
      exact ⟨(hn.right m rfl).1, .inr (hn.right m rfl).2⟩
    | error => exact ⟨hn.sound, fun _ _ h => by cases h⟩
    | incorrect =>
      refine ⟨hn.sound, fun s' m' h => ?_⟩
      cases h
      exact ⟨rfl, .inl rfl⟩
    | panic => exact ⟨hn.sound, fun _ _ h => by cases h⟩
  | forNew E rotate salt nonce l =>
    show Sound (promptForNew C E cache rotate salt nonce l).2.1 ∧ ∀ s' m, (promptForNew C E cache rotate salt nonce l).2.2 = .ok (s', m) → _
    unfold promptForNew
    generalize hp : newPhrase E rotate l = y
    obtain ⟨l', r⟩ := y
    cases r with
    | ok p =>
      have hn := newManager_spec hc p (newState C p salt nonce)
      simp only
      generalize hm : newManager C cache p (newState C p salt nonce) = x at hn ⊢
      obtain ⟨cache', r⟩ := x
      simp only at hn ⊢
      cases r with
      | ok m =>
        refine ⟨hn.1, fun s' m' h => ?_⟩
        cases h
        exact ⟨(hn.2.2 m rfl).1, .inr (hn.2.2 m rfl).2.1⟩
      | error => exact ⟨hn.1, fun _ _ h => by cases h⟩
      | incorrect => exact ⟨hn.1, fun _ _ h => by cases h⟩
      | panic => exact ⟨hn.1, fun _ _ h => by cases h⟩
    | error => exact ⟨hc, fun _ _ h => by cases h⟩
    | incorrect => exact ⟨hc, fun _ _ h => by cases h⟩
    | panic => exact ⟨hc, fun _ _ h => by cases h⟩

theorem runCalls_sound {C : Cipher} (l : List Call) : ∀ {cache : Cache C}, Sound cache → Sound (runCalls cache l) := by
  induction l with
  | nil => intro _ h; exact h
  | cons c l ih => intro cache h; exact ih (Call.run_spec h c).1

/-- **C206** After any calls, in any order, with any passphrases, the manager that a call gives for a state has that state; if the state was made with a passphrase, the manager has the key of
that passphrase or is locked. -/
theorem managers_have_the_key {C : Cipher} (h : C.Opens) (ha : C.Authentic) (calls : List Call) (c : Call) {s : Text} {m : Manager C} (hm : (c.run (runCalls [] calls)).2 = .ok (s, m)) :
    m.state = s ∧ ∀ p salt nonce, nonce.length = 12 → s = newState C p salt nonce → m.key = some (C.key p salt) ∨ m.key = none := by
  have hs : Sound (runCalls ([] : Cache C) calls) := runCalls_sound calls fun s m h => by cases h
  obtain ⟨h1, h2⟩ := (Call.run_spec hs c).2 s m hm
  refine ⟨h1, fun p salt nonce hn e => ?_⟩
  rcases h2 with h2 | ⟨k, q, h2, h3⟩
  · exact .inr h2
  · subst e
    left
    rw [h2]
    congr 1
    have hk : k = C.key q salt := by
      rw [crypterFrom_newState] at h3
      split at h3 <;> try cases h3
      split at h3
      · cases h3; rfl
      · cases h3
    by_cases he : C.key q salt = C.key p salt
    · rw [hk, he]
    · rw [(right_and_wrong h ha p q salt hn).2 he] at h3; cases h3

/-- **C206** Whatever one manager of a state encrypts, every manager of this state decrypts to the same, unless it is locked. -/
theorem managers_agree {C : Cipher} (h : C.Opens) (ha : C.Authentic) {calls calls' : List Call} {c c' : Call} {p : Text} {salt nonce n : List Byte} (hn : nonce.length = 12) (hn' : n.length = 12)
    {m m' : Manager C} (hm : (c.run (runCalls [] calls)).2 = .ok (newState C p salt nonce, m)) (hm' : (c'.run (runCalls [] calls')).2 = .ok (newState C p salt nonce, m'))
    {t e : Text} (he : m.encrypt n t = .ok e) : m'.decrypt e = .ok t ∨ m'.key = none := by
  have h1 := (managers_have_the_key h ha calls c hm).2 p salt nonce hn rfl
  have h2 := (managers_have_the_key h ha calls' c' hm').2 p salt nonce hn rfl
  rcases h2 with h2 | h2
  · left
    rcases h1 with h1 | h1
    · unfold Manager.encrypt at he
      rw [h1] at he
      cases he
      unfold Manager.decrypt
      rw [h2]
      exact decrypt_encrypt h _ hn' t
    · unfold Manager.encrypt at he
      rw [h1] at he; cases he
  · exact .inr h2

/-- **C206** A locked manager gives nothing away and takes nothing in, and has the state that it was made from. -/
theorem locked {C : Cipher} {m : Manager C} (h : m.key = none) (n : List Byte) (t : Text) : m.encrypt n t = .error ∧ m.decrypt t = .error := by
  unfold Manager.encrypt Manager.decrypt
  rw [h]
  exact ⟨rfl, rfl⟩

/-- **C206** A new passphrase gives a state that opens with it. -/
theorem new_passphrase {C : Cipher} (h : C.Opens) (ha : C.Authentic) (calls : List Call) (E : Env) (rotate : Bool) (salt : List Byte) {nonce : List Byte} (hn : nonce.length = 12) (l : List Text) :
    let r := (promptForNew C E (runCalls [] calls) rotate salt nonce l).2.2
    (∃ p m, (newPhrase E rotate l).2 = .ok p ∧ r = .ok (newState C p salt nonce, m) ∧ m.state = newState C p salt nonce ∧ m.key = some (C.key p salt)) ∨
    ((newPhrase E rotate l).2 = .error ∧ r = .error) := by
  have hs : Sound (runCalls ([] : Cache C) calls) := runCalls_sound calls fun s m h => by cases h
  have hsrc : ∀ l, (∃ p, (newPhraseLoop l).2 = .ok p) ∨ (newPhraseLoop l).2 = .error := by
    intro l
    induction l using newPhraseLoop.induct with
    | case1 a l => left; unfold newPhraseLoop; simp
    | case2 a b l h ih => unfold newPhraseLoop; rw [if_neg h]; exact ih
    | case3 l h => right; unfold newPhraseLoop; split; exact absurd rfl (h _ _ _); rfl
  have hph : (∃ p, (newPhrase E rotate l).2 = .ok p) ∨ (newPhrase E rotate l).2 = .error := by
    unfold newPhrase
    split
    · exact .inr rfl
    · cases E.source (!rotate) with
      | text p => exact .inl ⟨p, rfl⟩
      | none => exact .inr rfl
      | console => exact hsrc l
  generalize hx : newPhrase E rotate l = x at hph
  obtain ⟨l', r⟩ := x
  simp only at hph
  unfold promptForNew
  rw [hx]
  rcases hph with ⟨p, rfl⟩ | rfl
  · left
    simp only
    have hrw := (right_and_wrong h ha p p salt hn).1
    have hns := newManager_spec hs p (newState C p salt nonce)
    have hok : ∃ m, (newManager C (runCalls [] calls) p (newState C p salt nonce)).2 = .ok m := by
      unfold newManager
      split
      · exact ⟨_, rfl⟩
      · rw [hrw]; exact ⟨_, rfl⟩
    obtain ⟨m, hm⟩ := hok
    have hrun : ((Call.new p (newState C p salt nonce)).run (runCalls ([] : Cache C) calls)).2 = .ok (newState C p salt nonce, m) := by
      show (withState _ (newManager C (runCalls [] calls) p (newState C p salt nonce))).2 = _
      generalize newManager C (runCalls [] calls) p (newState C p salt nonce) = y at hm ⊢
      obtain ⟨c', r'⟩ := y
      simp only at hm
      subst hm
      rfl
    have hkey := managers_have_the_key h ha calls _ hrun
    obtain ⟨k, q, hk, -⟩ := (hns.2.2 m hm).2.1
    generalize newManager C (runCalls [] calls) p (newState C p salt nonce) = y at hm ⊢
    obtain ⟨c', r'⟩ := y
    simp only at hm
    subst hm
    refine ⟨p, m, rfl, rfl, hkey.1, ?_⟩
    rcases hkey.2 p salt nonce hn rfl with h5 | h5
    · exact h5
    · rw [hk] at h5; cases h5
  · exact .inr ⟨rfl, rfl⟩

/-- **C206** At a terminal, wrong passphrases are passed over: the first right one opens the state, and nothing more is read. -/
theorem first_right_passphrase {C : Cipher} (h : C.Opens) (ha : C.Authentic) {p : Text} {salt nonce : List Byte} (hn : nonce.length = 12) {cache : Cache C} (hc : cache.lookup (newState C p salt nonce) = none)
    {E : Env} (hE : E.source true = .console) {wrong : List Text} (hw : ∀ q ∈ wrong, C.key q salt ≠ C.key p salt) (rest : List Text) :
    ∃ cache', prompting C E cache (newState C p salt nonce) (wrong ++ p :: rest) = (rest, cache', .ok ⟨newState C p salt nonce, some (C.key p salt)⟩) := by
  unfold prompting
  rw [hc, hE]
  simp only
  induction wrong with
  | nil =>
    simp only [List.nil_append, promptLoop, newManager, hc, (right_and_wrong h ha p p salt hn).1]
    exact ⟨_, rfl⟩
  | cons q l ih =>
    simp only [List.cons_append, promptLoop, newManager, hc, (right_and_wrong h ha p q salt hn).2 (hw q List.mem_cons_self)]
    exact ih fun q hq => hw q (List.mem_cons_of_mem _ hq)

/-- **C206** Where the passphrase is from: the variable, though it may be empty; else the file, if one is named; else the terminal, if there is one. What is typed for a new one when the old
one is replaced is always from the terminal. -/
theorem where_from (E : Env) :
    (∀ p, E.phrase = some p → E.source true = .text p) ∧
    (∀ f, E.phrase = none → E.file = some f → f ≠ [] → E.source true = match E.read f with | some p => .text p | none => .none) ∧
    (E.phrase = none → (E.file = none ∨ E.file = some []) → E.source true = if E.interactive then .console else .none) ∧
    E.source false = .console := by
  unfold Env.source
  refine ⟨fun p h => by simp [h], fun f h1 h2 h3 => by simp [h1, h2, h3]; split <;> simp_all, fun h1 h2 => ?_, by simp⟩
  rcases h2 with h2 | h2 <;> simp [h1, h2]

/-- **C206** A new passphrase from the terminal has been typed twice in a row, and replacing one needs a terminal. -/
theorem typed_twice {l : List Text} {p : Text} {r : List Text} (h : newPhraseLoop l = (r, .ok p)) : ∃ before, l = before ++ [p, p] ++ r := by
  induction l using newPhraseLoop.induct with
  | case1 a l =>
    unfold newPhraseLoop at h
    rw [if_pos rfl] at h
    cases h
    exact ⟨[], rfl⟩
  | case2 a b l e ih =>
    unfold newPhraseLoop at h
    rw [if_neg e] at h
    obtain ⟨before, rfl⟩ := ih h
    exact ⟨a :: b :: before, rfl⟩
  | case3 l e =>
    unfold newPhraseLoop at h
    split at h
    · exact absurd rfl (e _ _ _)
    · cases h

/-- **C206** A passphrase is replaced only at a terminal, and only by what is typed there. -/
theorem replaced_at_terminal {E : Env} {l r : List Text} {p : Text} (h : newPhrase E true l = (r, .ok p)) : E.interactive = true ∧ ∃ before, l = before ++ [p, p] ++ r := by
  unfold newPhrase at h
  cases hi : E.interactive with
  | false => rw [hi] at h; simp at h
  | true =>
    rw [hi] at h
    simp only [Bool.not_true, Bool.and_false, Bool.false_eq_true, if_false, (where_from E).2.2.2] at h
    exact ⟨rfl, typed_twice h⟩

/-- **C206** A checkpoint can be read without the right passphrase: its manager is locked, but has the state with which the checkpoint can be saved again. -/
theorem wrong_passphrase_locks {C : Cipher} (h : C.Opens) (ha : C.Authentic) {p q : Text} {salt nonce : List Byte} (hn : nonce.length = 12) {cache : Cache C} (hc : cache.lookup (newState C p salt nonce) = none)
    {E : Env} (hE : E.source true = .text q) (hq : C.key q salt ≠ C.key p salt) (l : List Text) :
    fromState C E cache (newState C p salt nonce) l = (l, cache, .ok ⟨newState C p salt nonce, none⟩) := by
  unfold fromState prompting
  rw [hc, hE]
  simp only [newManager, hc, (right_and_wrong h ha p q salt hn).2 hq]

/-! ## A cipher, and what does not hold -/

/-- A character in three bytes -/
def bytesOf (c : Char) : List Byte := [byte (c.toNat / 65536), byte (c.toNat / 256), byte c.toNat]

def textOf : List Byte → Text
  | a :: b :: c :: l => Char.ofNat (a * 65536 + b * 256 + c) :: textOf l
  | _ => []

/-- A cipher that puts a mark in front that tells whether the passphrase was `a` -/
def marked : Cipher where
  Key := Bool
  key p _ := p == ['a']
  shut k _ t := (if k then 1 else 0) :: t.flatMap bytesOf
  unlock k _ e :=
    match e with
    | m :: e => if m = (if k then 1 else 0) then some (textOf e) else none
    | [] => none

theorem textOf_bytesOf (t : Text) : textOf (t.flatMap bytesOf) = t := by
  induction t with
  | nil => rfl
  | cons c l ih =>
    simp only [List.flatMap_cons, bytesOf, List.cons_append, List.nil_append, textOf, ih, List.cons.injEq, and_true]
    have hc : c.toNat < 1114112 := by
      have := c.valid
      simp only [UInt32.isValidChar, Nat.isValidChar] at this
      have e : c.toNat = c.val.toNat := rfl
      omega
    have : (byte (c.toNat / 65536)).val * 65536 + (byte (c.toNat / 256)).val * 256 + (byte c.toNat).val = c.toNat := by
      simp only [byte, Fin.ofNat]
      omega
    rw [this, Char.ofNat_toNat]

theorem marked_opens : marked.Opens := by
  intro k n t
  simp [marked, textOf_bytesOf]

theorem marked_authentic : marked.Authentic := by
  intro k k' n t u h
  cases k <;> cases k' <;> first | rfl | (simp [marked] at h)

def zeros : List Byte := List.replicate 12 0

/-- A state is made with `a`; then it is opened with `b`, which fails, and at a terminal where `b` and then `a` is typed, which goes well. -/
example : (∃ m : Manager marked, ((Call.prompting ⟨none, none, fun _ => none, true⟩ (newState marked ['a'] [7] zeros) [['b'], ['a']]).run (runCalls [] [.new ['b'] (newState marked ['a'] [7] zeros)])).2 =
      .ok (newState marked ['a'] [7] zeros, m) ∧ m.key = some true) ∧ zeros.length = 12 ∧
    (Call.new ['b'] (newState marked ['a'] [7] zeros)).run (C := marked) [] = ([], .error) := ⟨⟨_, rfl, rfl⟩, rfl, rfl⟩

/-- A new passphrase is taken from the terminal. -/
example : newPhrase ⟨some ['x'], none, fun _ => none, true⟩ true [['b'], ['c'], ['a'], ['a'], ['z']] = ([['z']], .ok ['a']) := by decide +kernel

/-- **C205** A nonce that has not 12 bytes ends the process: a value that someone has written into the configuration by hand can do that. -/
theorem bad_nonce_panics (C : Cipher) (k : C.Key) : decryptValue C k "v1:AAAA:AAAA".toList = .panic := by
  have h1 : split ':' "v1:AAAA:AAAA".toList = [v1, "AAAA".toList, "AAAA".toList] := by decide +kernel
  have h2 : decode "AAAA".toList = some [0, 0, 0] := by decide +kernel
  unfold decryptValue
  rw [h1]
  simp only [ne_eq, not_true, if_false, h2]
  rfl

/-- **C206** A state that has been opened once in a process opens with every passphrase. -/
theorem opened_once {C : Cipher} {cache : Cache C} {p s : Text} {m : Manager C} (h : (newManager C cache p s).2 = .ok m) (wrong : Text) :
    (newManager C (newManager C cache p s).1 wrong s).2 = .ok m := by
  have hl : (newManager C cache p s).1.lookup s = some m := by
    unfold newManager at h ⊢
    cases hl : cache.lookup s with
    | some m' => rw [hl] at h; cases h; exact hl
    | none =>
      rw [hl] at h
      simp only at h ⊢
      cases hk : crypterFrom C p s with
      | ok k => rw [hk] at h; cases h; simp
      | error => rw [hk] at h; cases h
      | incorrect => rw [hk] at h; cases h
      | panic => rw [hk] at h; cases h
  generalize (newManager C cache p s).1 = c at hl
  unfold newManager
  rw [hl]

end Pulumi.Secrets
