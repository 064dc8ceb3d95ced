import Verif.Secrets.Theorems
/-!
# Changing the passphrase of a stack (C207)

Models `/repo/pkg/cmd/pulumi/stack_change_secrets_provider.go` (lines without a mark) for the passphrase provider, with `createSecretsManager` (`/repo/pkg/cmd/pulumi/util.go:162-190`) and
`NewPassphraseSecretsManager` (`/repo/pkg/backend/filestate/crypto.go:25-71`), which save the file of the stack. The configuration is flat: secrets inside of objects are left out. Of the
checkpoint there are its secrets and the state of its secrets manager.
-/
namespace Pulumi.Secrets

/-- A value of the configuration -/
inductive Val where
  | plain (t : Text)
  | secure (c : Text)
deriving DecidableEq, Repr

/-- The file of the stack: `encryptionsalt` and `config` -/
structure StackFile where
  salt : Text
  config : List (Text × Val)
deriving DecidableEq, Repr

/-- The checkpoint: the state of its manager, and its secrets -/
structure Saved where
  state : Text
  secrets : List Text
deriving DecidableEq, Repr

structure Disk where
  file : StackFile
  saved : Saved
deriving DecidableEq, Repr

/-- Encrypting anew with the key `k` what `m` decrypts; there is a nonce for every place. -/
def recode {C : Cipher} (m : Manager C) (k : C.Key) (nonces : Nat → List Byte) : Nat → List Text → Option (List Text)
  | _, [] => some []
  | i, c :: l =>
    match m.decrypt c with
    | .ok t => (recode m k nonces (i + 1) l).map (encryptValue C k (nonces i) t :: ·)
    | _ => none

/-- `Config.Copy` (130) -/
def recodeConfig {C : Cipher} (m : Manager C) (k : C.Key) (nonces : Nat → List Byte) : Nat → List (Text × Val) → Option (List (Text × Val))
  | _, [] => some []
  | i, (key, .plain t) :: l => (recodeConfig m k nonces (i + 1) l).map ((key, .plain t) :: ·)
  | i, (key, .secure c) :: l =>
    match m.decrypt c with
    | .ok t => (recodeConfig m k nonces (i + 1) l).map ((key, .secure (encryptValue C k (nonces i) t)) :: ·)
    | _ => none

/-- The command (61-101, 112-178) from the moment where the old manager `m` of the configuration and the new state with its key are known; `m'` is the manager of the checkpoint. What is on
disk after every write, and whether it ends well: first the new salt is saved, then the configuration, then the checkpoint. -/
def change {C : Cipher} (m m' : Manager C) (state : Text) (k : C.Key) (nonces nonces' : Nat → List Byte) (d : Disk) : List Disk × Bool :=
  match recodeConfig m k nonces 0 d.file.config with
  | none => ([{ d with file := { d.file with salt := state } }], false)
  | some config =>
    match recode m' k nonces' 0 d.saved.secrets with
    | none => ([{ d with file := { d.file with salt := state } }, { d with file := ⟨state, config⟩ }], false)
    | some secrets => ([{ d with file := { d.file with salt := state } }, { d with file := ⟨state, config⟩ }, ⟨⟨state, config⟩, ⟨state, secrets⟩⟩], true)

/-! ## What is said about it -/

/-- What a manager reads from a configuration -/
def readConfig {C : Cipher} (m : Manager C) (l : List (Text × Val)) : List (Text × Res Text) :=
  l.map fun (key, v) => (key, match v with | .plain t => .ok t | .secure c => m.decrypt c)

theorem recode_spec {C : Cipher} (h : C.Opens) {m : Manager C} {k : C.Key} {nonces : Nat → List Byte} (hn : ∀ i, (nonces i).length = 12) (s : Text) {l r : List Text} {i : Nat}
    (hr : recode m k nonces i l = some r) : r.map (Manager.decrypt ⟨s, some k⟩) = l.map m.decrypt := by
  induction l generalizing r i with
  | nil => cases hr; rfl
  | cons c l ih =>
    unfold recode at hr
    cases hd : m.decrypt c with
    | ok t =>
      rw [hd] at hr
      obtain ⟨r', h1, rfl⟩ := Option.map_eq_some_iff.mp hr
      simp only [List.map_cons, hd, ih h1]
      congr 1
      exact decrypt_encrypt h k (hn i) t
    | error => rw [hd] at hr; cases hr
    | incorrect => rw [hd] at hr; cases hr
    | panic => rw [hd] at hr; cases hr

theorem recodeConfig_spec {C : Cipher} (h : C.Opens) {m : Manager C} {k : C.Key} {nonces : Nat → List Byte} (hn : ∀ i, (nonces i).length = 12) (s : Text) {l r : List (Text × Val)} {i : Nat}
    (hr : recodeConfig m k nonces i l = some r) : readConfig ⟨s, some k⟩ r = readConfig m l ∧ r.map (fun x => match x.2 with | .plain _ => true | .secure _ => false) =
      l.map (fun x => match x.2 with | .plain _ => true | .secure _ => false) := by
  induction l generalizing r i with
  | nil => cases hr; exact ⟨rfl, rfl⟩
  | cons x l ih =>
    obtain ⟨key, v⟩ := x
    cases v with
    | plain t =>
      unfold recodeConfig at hr
      obtain ⟨r', h1, rfl⟩ := Option.map_eq_some_iff.mp hr
      have := ih h1
      unfold readConfig at this ⊢
      simp only [List.map_cons, this.1, this.2, and_self]
    | secure c =>
      unfold recodeConfig at hr
      cases hd : m.decrypt c with
      | ok t =>
        rw [hd] at hr
        obtain ⟨r', h1, rfl⟩ := Option.map_eq_some_iff.mp hr
        have := ih h1
        unfold readConfig at this ⊢
        simp only [List.map_cons, this.1, this.2, hd, and_true]
        congr 2
        exact decrypt_encrypt h k (hn i) t
      | error => rw [hd] at hr; cases hr
      | incorrect => rw [hd] at hr; cases hr
      | panic => rw [hd] at hr; cases hr

/-- **C207** If the passphrase has been changed, the new one reads from the configuration and the checkpoint what the old one did, and what was a secret is one. -/
theorem changed {C : Cipher} (h : C.Opens) {m m' : Manager C} {p : Text} {salt nonce : List Byte} {nonces nonces' : Nat → List Byte} (hn : ∀ i, (nonces i).length = 12) (hn' : ∀ i, (nonces' i).length = 12)
    {d : Disk} (hok : (change m m' (newState C p salt nonce) (C.key p salt) nonces nonces' d).2 = true) :
    ∃ d', (change m m' (newState C p salt nonce) (C.key p salt) nonces nonces' d).1.getLast? = some d' ∧ d'.file.salt = newState C p salt nonce ∧ d'.saved.state = newState C p salt nonce ∧
      readConfig ⟨newState C p salt nonce, some (C.key p salt)⟩ d'.file.config = readConfig m d.file.config ∧
      d'.file.config.map (fun x => match x.2 with | .plain _ => true | .secure _ => false) = d.file.config.map (fun x => match x.2 with | .plain _ => true | .secure _ => false) ∧
      d'.saved.secrets.map (Manager.decrypt ⟨newState C p salt nonce, some (C.key p salt)⟩) = d.saved.secrets.map m'.decrypt := by
  unfold change at hok ⊢
  cases h1 : recodeConfig m (C.key p salt) nonces 0 d.file.config with
  | none => rw [h1] at hok; cases hok
  | some config =>
    rw [h1] at hok
    simp only at hok ⊢
    cases h2 : recode m' (C.key p salt) nonces' 0 d.saved.secrets with
    | none => rw [h2] at hok; cases hok
    | some secrets =>
      have h3 := recodeConfig_spec h hn (newState C p salt nonce) h1
      exact ⟨_, rfl, rfl, rfl, h3.1, h3.2, recode_spec h hn' _ h2⟩

/-- **C207** Whenever it stops, the checkpoint is as it was, or it can be read with the new passphrase and has the state that belongs to it. -/
theorem checkpoint_stays_readable {C : Cipher} (h : C.Opens) {m m' : Manager C} {s : Text} {k : C.Key} {nonces nonces' : Nat → List Byte} (hn' : ∀ i, (nonces' i).length = 12)
    {d d' : Disk} (hd : d' ∈ (change m m' s k nonces nonces' d).1) :
    d'.saved = d.saved ∨ d'.saved.state = s ∧ d'.saved.secrets.map (Manager.decrypt ⟨s, some k⟩) = d.saved.secrets.map m'.decrypt := by
  unfold change at hd
  cases h1 : recodeConfig m k nonces 0 d.file.config with
  | none =>
    rw [h1] at hd
    simp only [List.mem_singleton] at hd
    exact .inl (by rw [hd])
  | some config =>
    rw [h1] at hd
    simp only at hd
    cases h2 : recode m' k nonces' 0 d.saved.secrets with
    | none =>
      rw [h2] at hd
      simp only [List.mem_cons, List.not_mem_nil, or_false] at hd
      rcases hd with rfl | rfl <;> exact .inl rfl
    | some secrets =>
      rw [h2] at hd
      simp only [List.mem_cons, List.not_mem_nil, or_false] at hd
      rcases hd with rfl | rfl | rfl
      · exact .inl rfl
      · exact .inl rfl
      · exact .inr ⟨rfl, recode_spec h hn' s h2⟩

/-- **C207** The new salt is saved before the secrets are encrypted anew: if the command stops there, no passphrase that opens the file reads the secrets that are in it. -/
theorem secrets_stranded {C : Cipher} (h : C.Opens) (ha : C.Authentic) (m m' : Manager C) {p : Text} {salt nonce : List Byte} (hn : nonce.length = 12) (nonces nonces' : Nat → List Byte) {d : Disk}
    {key t : Text} {k₀ : C.Key} {n₀ : List Byte} (hn₀ : n₀.length = 12) (hc : (key, Val.secure (encryptValue C k₀ n₀ t)) ∈ d.file.config) (hk : k₀ ≠ C.key p salt) :
    ∃ d', (change m m' (newState C p salt nonce) (C.key p salt) nonces nonces' d).1.head? = some d' ∧ (key, Val.secure (encryptValue C k₀ n₀ t)) ∈ d'.file.config ∧
      ∀ q k, crypterFrom C q d'.file.salt = .ok k → ∀ u, decryptValue C k (encryptValue C k₀ n₀ t) ≠ .ok u := by
  have hhead : (change m m' (newState C p salt nonce) (C.key p salt) nonces nonces' d).1.head? = some { d with file := { d.file with salt := newState C p salt nonce } } := by
    unfold change
    split
    · rfl
    · split <;> rfl
  refine ⟨_, hhead, hc, fun q k hq u hu => ?_⟩
  have h1 := (decrypts_only_own h ha hn₀ hu).1
  by_cases he : C.key q salt = C.key p salt
  · have hq' : crypterFrom C q (newState C p salt nonce) = .ok k := hq
    rw [crypterFrom_newState, he, decrypt_encrypt h _ hn] at hq'
    simp only [if_true, Res.ok.injEq] at hq'
    exact hk (by rw [hq', h1])
  · have hq' : crypterFrom C q (newState C p salt nonce) = .ok k := hq
    rw [(right_and_wrong h ha p q salt hn).2 he] at hq'
    cases hq'

/-- **C207** One value that cannot be decrypted is enough for that: the command fails, and all the other secrets of the configuration are lost. -/
theorem one_bad_value {C : Cipher} (m m' : Manager C) (s : Text) (k : C.Key) (nonces nonces' : Nat → List Byte) {d : Disk} {key c : Text} (hc : (key, Val.secure c) ∈ d.file.config)
    (hb : ∀ t, m.decrypt c ≠ .ok t) : change m m' s k nonces nonces' d = ([{ d with file := { d.file with salt := s } }], false) := by
  have : ∀ i, recodeConfig m k nonces i d.file.config = none := by
    generalize d.file.config = l at hc
    induction l with
    | nil => cases hc
    | cons x l ih =>
      intro i
      obtain ⟨key', v⟩ := x
      rcases List.mem_cons.mp hc with e | hc1
      · cases e
        unfold recodeConfig
        cases hd : m.decrypt c with
        | ok t => exact absurd hd (hb t)
        | error => rfl
        | incorrect => rfl
        | panic => rfl
      · cases v with
        | plain t => unfold recodeConfig; rw [ih hc1]; rfl
        | secure c' =>
          unfold recodeConfig
          rw [ih hc1]
          cases m.decrypt c' <;> rfl
  unfold change
  rw [this 0]

/-! ## A case -/

def exDisk : Disk := ⟨⟨newState marked ['b'] [7] zeros, [("x".toList, .plain "1".toList), ("y".toList, .secure (encryptValue marked false zeros "s".toList))]⟩,
  ⟨newState marked ['b'] [7] zeros, [encryptValue marked false zeros "t".toList]⟩⟩

/-- The passphrase `b` is replaced by `a`. -/
example : (change (C := marked) ⟨newState marked ['b'] [7] zeros, some false⟩ ⟨newState marked ['b'] [7] zeros, some false⟩ (newState marked ['a'] [8] zeros) true (fun _ => zeros) (fun _ => zeros) exDisk).2 = true ∧
    readConfig (C := marked) ⟨newState marked ['b'] [7] zeros, some false⟩ exDisk.file.config = [("x".toList, .ok "1".toList), ("y".toList, .ok "s".toList)] := by decide +kernel

end Pulumi.Secrets
