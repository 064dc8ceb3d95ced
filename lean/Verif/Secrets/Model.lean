import Verif.Secrets.Base64
/-!
# Secrets that are kept under a passphrase

Models the symmetric crypter of `/repo/sdk/go/common/resource/config/crypt.go` (lines marked `crypt`) and `/repo/pkg/secrets/passphrase/manager.go` (lines without a mark). The key
derivation and the cipher are parameters. Texts are lists of characters. The cache is passed along; the process is one that works on it one call after another (it has a lock).
-/
namespace Pulumi.Secrets

abbrev Text := List Char

/-- What a call can come to -/
inductive Res (α : Type) where
  | ok (a : α)
  | error
  /-- `ErrIncorrectPassphrase` (40) -/
  | incorrect
  | panic
deriving DecidableEq, Repr

/-- PBKDF2 (crypt:155-160) and AES-256-GCM (crypt:204-235): `unlock` gives nothing if the text is not authentic. -/
structure Cipher where
  Key : Type
  key : Text → List Byte → Key
  shut : Key → List Byte → Text → List Byte
  unlock : Key → List Byte → List Byte → Option Text

/-- `strings.Split` by one character -/
def split (c : Char) : Text → List Text
  | [] => [[]]
  | x :: l =>
    if x = c then [] :: split c l
    else
      match split c l with
      | [] => [[x]]
      | p :: ps => (x :: p) :: ps

/-- `strings.Cut` by one character, as `strings.Index` finds it -/
def cut (c : Char) : Text → Option (Text × Text)
  | [] => none
  | x :: l => if x = c then some ([], l) else (cut c l).map fun (a, b) => (x :: a, b)

/-- `strings.SplitN` by one character -/
def splitN (c : Char) : Nat → Text → List Text
  | 0, _ => []
  | 1, t => [t]
  | n + 2, t =>
    match cut c t with
    | none => [t]
    | some (a, b) => a :: splitN c (n + 1) b

/-- What is left after `n` occurrences have been looked for (72-84); if one is not found, `idx` is -1 and nothing is cut off. -/
def scratch (c : Char) : Nat → Text → Text
  | 0, t => t
  | n + 1, t =>
    match cut c t with
    | none => scratch c n t
    | some (_, b) => scratch c n b

/-- `indexN` (72-87) of one character -/
def indexN (t : Text) (c : Char) (n : Nat) : Int := t.length - ((scratch c n t).length + 1)

def v1 : Text := ['v', '1']

/-- `EncryptValue` (crypt:169-173), with the nonce that is drawn -/
def encryptValue (C : Cipher) (k : C.Key) (nonce : List Byte) (t : Text) : Text := v1 ++ ':' :: (encode nonce ++ ':' :: encode (C.shut k nonce t))

/-- `DecryptValue` (crypt:175-197) with `decryptAES256GCM` (crypt:223-235): `Open` panics if the nonce has not 12 bytes. -/
def decryptValue (C : Cipher) (k : C.Key) (t : Text) : Res Text :=
  match split ':' t with
  | [v, n, e] =>
    if v ≠ v1 then .error
    else
      match decode n, decode e with
      | some n, some e =>
        if n.length ≠ 12 then .panic
        else
          match C.unlock k n e with
          | some p => .ok p
          | none => .error
      | _, _ => .error
  | _ => .error

/-- The word that tells whether a passphrase is right (64, 263) -/
def check : Text := "pulumi".toList

/-- `symmetricCrypterFromPhraseAndState` (46-70) -/
def crypterFrom (C : Cipher) (phrase state : Text) : Res C.Key :=
  match splitN ':' 3 state with
  | [v, s, _] =>
    if v ≠ v1 then .error
    else
      match decode s with
      | none => .error
      | some salt =>
        match decryptValue C (C.key phrase salt) (state.drop (indexN state ':' 2 + 1).toNat) with
        | .panic => .panic
        | .ok p => if p = check then .ok (C.key phrase salt) else .incorrect
        | _ => .incorrect
  | _ => .error

/-- `localSecretsManager` (95-98); without a key it is locked (309-339). -/
structure Manager (C : Cipher) where
  state : Text
  key : Option C.Key

/-- `cache` (118-142) -/
abbrev Cache (C : Cipher) := List (Text × Manager C)

/-- `NewPassphaseSecretsManager` (145-164) -/
def newManager (C : Cipher) (cache : Cache C) (phrase state : Text) : Cache C × Res (Manager C) :=
  match cache.lookup state with
  | some m => (cache, .ok m)
  | none =>
    match crypterFrom C phrase state with
    | .ok k => ((state, ⟨state, some k⟩) :: cache, .ok ⟨state, some k⟩)
    | .error => (cache, .error)
    | .incorrect => (cache, .incorrect)
    | .panic => (cache, .panic)

/-- The environment: the variables, what is in files, without spaces around it, and whether there is a terminal (304-307) -/
structure Env where
  phrase : Option Text
  file : Option Text
  read : Text → Option Text
  interactive : Bool

/-- Where a passphrase is from -/
inductive Source where
  | text (t : Text)
  | console
  | none
deriving DecidableEq, Repr

/-- `readPassphrase` (279-302) -/
def Env.source (E : Env) (useEnv : Bool) : Source :=
  if useEnv then
    match E.phrase with
    | some p => .text p
    | none =>
      match E.file with
      | some f => if f ≠ [] then (match E.read f with | some p => .text p | none => .none) else if E.interactive then .console else .none
      | none => if E.interactive then .console else .none
  else .console

/-- The loop of `NewPromptingPassphraseSecretsManager` (179-195) at a terminal where these lines are typed: what is left of them, the cache and the result. At the end of the lines there is
an error. -/
def promptLoop (C : Cipher) (cache : Cache C) (state : Text) : List Text → List Text × Cache C × Res (Manager C)
  | [] => ([], cache, .error)
  | p :: l =>
    match newManager C cache p state with
    | (cache', .incorrect) => promptLoop C cache' state l
    | (cache', r) => (l, cache', r)

/-- `NewPromptingPassphraseSecretsManager` (169-196) -/
def prompting (C : Cipher) (E : Env) (cache : Cache C) (state : Text) (lines : List Text) : List Text × Cache C × Res (Manager C) :=
  match cache.lookup state with
  | some m => (lines, cache, .ok m)
  | none =>
    match E.source true with
    | .text p => (lines, newManager C cache p state)
    | .none => (lines, cache, .error)
    | .console => promptLoop C cache state lines

/-- `NewPromptingPassphaseSecretsManagerFromState` (200-215), of a state that is JSON -/
def fromState (C : Cipher) (E : Env) (cache : Cache C) (state : Text) (lines : List Text) : List Text × Cache C × Res (Manager C) :=
  match prompting C E cache state lines with
  | (l, cache', .incorrect) => (l, cache', .ok ⟨state, none⟩)
  | r => r

/-- The loop of `PromptForNewPassphrase` (222-253): two lines are read until they are the same. -/
def newPhraseLoop : List Text → List Text × Res Text
  | a :: b :: l => if a = b then (l, .ok a) else newPhraseLoop l
  | _ => ([], .error)

/-- The new passphrase (222-253): it is asked for twice, in the environment, too. -/
def newPhrase (E : Env) (rotate : Bool) (lines : List Text) : List Text × Res Text :=
  if rotate && !E.interactive then (lines, .error)
  else
    match E.source (!rotate) with
    | .text p => (lines, .ok p)
    | .none => (lines, .error)
    | .console => newPhraseLoop lines

/-- The state of a new passphrase (255-269), with the salt and the nonce that are drawn -/
def newState (C : Cipher) (phrase : Text) (salt nonce : List Byte) : Text := v1 ++ ':' :: (encode salt ++ ':' :: encryptValue C (C.key phrase salt) nonce check)

/-- `PromptForNewPassphrase` (218-277) -/
def promptForNew (C : Cipher) (E : Env) (cache : Cache C) (rotate : Bool) (salt nonce : List Byte) (lines : List Text) : List Text × Cache C × Res (Text × Manager C) :=
  match newPhrase E rotate lines with
  | (l, .ok p) =>
    match newManager C cache p (newState C p salt nonce) with
    | (cache', .ok m) => (l, cache', .ok (newState C p salt nonce, m))
    | (cache', .error) => (l, cache', .error)
    | (cache', .incorrect) => (l, cache', .incorrect)
    | (cache', .panic) => (l, cache', .panic)
  | (l, .error) => (l, cache, .error)
  | (l, .incorrect) => (l, cache, .incorrect)
  | (l, .panic) => (l, cache, .panic)

/-- `EncryptValue` of a manager: a locked one encrypts nothing (323-326). -/
def Manager.encrypt {C : Cipher} (m : Manager C) (nonce : List Byte) (t : Text) : Res Text :=
  match m.key with
  | some k => .ok (encryptValue C k nonce t)
  | none => .error

/-- `DecryptValue` of a manager: a locked one decrypts nothing (328-331). -/
def Manager.decrypt {C : Cipher} (m : Manager C) (t : Text) : Res Text :=
  match m.key with
  | some k => decryptValue C k t
  | none => .error

end Pulumi.Secrets
