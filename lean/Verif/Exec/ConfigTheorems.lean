import Verif.Exec.Config
import Verif.Json.Ascii
import Verif.Conf.Theorems

/-!
# The configuration on its way to the program: theorems
-/

namespace Pulumi.Exec

open Json (Text unicodeEscape readUnits readString utf16 readValue readItems readMembers readJson J Floats skipWs)

/-! ## What is expected -/

/-- Python's `json.loads` reads JSON: an object of texts as a dictionary, if no name is there twice, and an array of texts as a
list. The reader of JSON is that of `Verif/Json/Spec.lean`. -/
structure ReadsJson (fl : Floats) (py : Conf.Py) : Prop where
  object : ∀ (s : String) (m : List (Text × Text)), (m.map (·.1)).Nodup →
    readJson fl s.toList = some (.obj (m.map fun kv => (kv.1, .str kv.2))) →
    py.loads s = some (.dict (m.map fun kv => (String.ofList kv.1, .str (String.ofList kv.2))))
  array : ∀ (s : String) (vs : List Text), readJson fl s.toList = some (.arr (vs.map .str)) →
    py.loads s = some (.list (vs.map fun v => .str (String.ofList v)))

/-! ## Go's JSON is JSON -/

variable {fl : Floats}

theorem readUnits_goEscape (c : Char) (s : Text) :
    readUnits (goEscape c ++ s) = (readUnits s).map fun x => (utf16 c ++ x.1, x.2) := by
  unfold goEscape
  by_cases h1 : c = '\\' ∨ c = '"'
  · rw [if_pos h1]
    rcases h1 with rfl | rfl
    · exact Json.readUnits_simple '\\' '\\' (by decide) rfl s
    · exact Json.readUnits_simple '"' '"' (by decide) rfl s
  rw [if_neg h1]
  by_cases h5 : c = '\n'
  · subst h5; rw [if_pos rfl]; exact Json.readUnits_simple 'n' '\n' (by decide) rfl s
  rw [if_neg h5]
  by_cases h6 : c = '\r'
  · subst h6; rw [if_pos rfl]; exact Json.readUnits_simple 'r' '\r' (by decide) rfl s
  rw [if_neg h6]
  by_cases h7 : c = '\t'
  · subst h7; rw [if_pos rfl]; exact Json.readUnits_simple 't' '\t' (by decide) rfl s
  rw [if_neg h7]
  by_cases h8 : c.toNat < 32 ∨ c = '<' ∨ c = '>' ∨ c = '&' ∨ c.toNat = 0x2028 ∨ c.toNat = 0x2029
  · have h9 : c.toNat < 65536 := by
      rcases h8 with h | rfl | rfl | rfl | h | h
      · omega
      · decide
      · decide
      · decide
      · omega
      · omega
    rw [if_pos h8, Json.readUnits_unicode _ h9]
    unfold utf16
    rw [if_pos h9]
    rfl
  · rw [if_neg h8]
    show readUnits (c :: s) = _
    rw [readUnits.eq_def]
    simp only
    rw [if_neg (fun h => h1 (.inr h)), if_neg (fun h => h1 (.inl h)), if_neg (fun h => h8 (.inl h))]

theorem readString_go (t s : Text) : readString (t.flatMap goEscape ++ '"' :: s) = some (t, s) := by
  have h : readUnits (t.flatMap goEscape ++ '"' :: s) = some (t.flatMap utf16, s) := by
    induction t with
    | nil => exact Json.readUnits_nil s
    | cons c t ih =>
      rw [List.flatMap_cons, List.flatMap_cons, List.append_assoc, readUnits_goEscape, ih]
      rfl
  unfold readString
  rw [h]
  simp only [Option.bind_eq_bind, Option.bind_some]
  rw [Json.fromUtf16_text]
  rfl

theorem goString_append (k r : Text) : goString k ++ r = '"' :: (k.flatMap goEscape ++ '"' :: r) := by
  simp [goString]

theorem readValue_goString (n : Nat) (v r : Text) : readValue (fl := fl) (n + 1) (goString v ++ r) = some (.str v, r) := by
  rw [goString_append, readValue, Json.skipWs_cons (by decide)]
  simp only
  rw [if_pos trivial, readString_go]
  rfl

theorem readMembers_go : ∀ (m : List (Text × Text)) (k v : Text) (n : Nat) (r : Text), m.length + 2 ≤ n →
    readMembers (fl := fl) n (goMembers ((k, v) :: m) ++ '}' :: r) = some (((k, v) :: m).map (fun kv => (kv.1, J.str kv.2)), r)
  | [], k, v, n, r, hn => by
    obtain ⟨n, rfl⟩ : ∃ m, n = m + 2 := ⟨n - 2, by simp at hn; omega⟩
    rw [goMembers, List.append_assoc, goString_append, readMembers, Json.skipWs_cons (by decide)]
    simp only
    rw [if_pos trivial, readString_go]
    simp only
    rw [List.cons_append, Json.skipWs_cons (by decide)]
    simp only
    rw [if_pos trivial, readValue_goString]
    simp only
    rw [Json.skipWs_cons (by decide)]
    simp only
    rw [if_pos trivial]
    rfl
  | (l, w) :: m, k, v, n, r, hn => by
    obtain ⟨n, rfl⟩ : ∃ m, n = m + 2 := ⟨n - 2, by simp at hn; omega⟩
    rw [goMembers]
    · rw [List.append_assoc, List.append_assoc, goString_append, readMembers, Json.skipWs_cons (by decide)]
      simp only
      rw [if_pos trivial, readString_go]
      simp only
      rw [List.cons_append, Json.skipWs_cons (by decide)]
      simp only
      rw [if_pos trivial, readValue_goString]
      simp only
      rw [List.cons_append, Json.skipWs_cons (by decide)]
      simp only
      rw [if_neg (by decide), if_pos trivial, readMembers_go m l w (n + 1) r (by simp at hn; omega)]
      rfl
    · intro e; cases e

theorem readItems_go : ∀ (vs : List Text) (v : Text) (n : Nat) (r : Text), vs.length + 2 ≤ n →
    readItems (fl := fl) n (goItems (v :: vs) ++ ']' :: r) = some ((v :: vs).map J.str, r)
  | [], v, n, r, hn => by
    obtain ⟨n, rfl⟩ : ∃ m, n = m + 2 := ⟨n - 2, by simp at hn; omega⟩
    rw [goItems, readItems, readValue_goString]
    simp only
    rw [Json.skipWs_cons (by decide)]
    simp only
    rw [if_pos trivial]
    rfl
  | w :: vs, v, n, r, hn => by
    obtain ⟨n, rfl⟩ : ∃ m, n = m + 2 := ⟨n - 2, by simp at hn; omega⟩
    rw [goItems]
    · rw [List.append_assoc, readItems, readValue_goString]
      simp only
      rw [List.cons_append, Json.skipWs_cons (by decide)]
      simp only
      rw [if_neg (by decide), if_pos trivial, readItems_go vs w (n + 1) r (by simp at hn; omega)]
      rfl
    · intro e; cases e

theorem goMembers_length (m : List (Text × Text)) : m.length ≤ (goMembers m).length := by
  induction m with
  | nil => simp
  | cons kv m ih =>
    obtain ⟨k, v⟩ := kv
    cases m with
    | nil => simp [goMembers, goString]
    | cons x m =>
      rw [goMembers]
      · simp only [List.length_append, List.length_cons] at ih ⊢; omega
      · intro e; cases e

theorem goItems_length (m : List Text) : m.length ≤ (goItems m).length := by
  induction m with
  | nil => simp
  | cons v m ih =>
    cases m with
    | nil => simp [goItems, goString]
    | cons x m =>
      rw [goItems]
      · simp only [List.length_append, List.length_cons] at ih ⊢; omega
      · intro e; cases e

theorem readJson_goObject (m : List (Text × Text)) :
    readJson fl (goObject m) = some (.obj (m.map fun kv => (kv.1, .str kv.2))) := by
  have hl := goMembers_length m
  unfold readJson goObject
  have e : readValue (fl := fl) (2 * ('{' :: goMembers m ++ ['}']).length + 2) ('{' :: goMembers m ++ ['}']) =
      some (.obj (m.map fun kv => (kv.1, .str kv.2)), []) := by
    rw [readValue, List.cons_append, Json.skipWs_cons (by decide)]
    simp only
    rw [if_neg (by decide), if_neg (by decide), if_pos trivial]
    cases m with
    | nil => rfl
    | cons kv m =>
      obtain ⟨k, v⟩ := kv
      have hh : (skipWs (goMembers ((k, v) :: m) ++ ['}'])).head? = some '"' := by
        have : ∃ t, goMembers ((k, v) :: m) = '"' :: t := by
          cases m with
          | nil => exact ⟨_, rfl⟩
          | cons x m =>
            rw [goMembers]
            · exact ⟨_, rfl⟩
            · intro e; cases e
        obtain ⟨t, ht⟩ := this
        rw [ht, List.cons_append, Json.skipWs_cons (by decide)]
        rfl
      rw [hh, if_neg (by decide), readMembers_go m k v _ []]
      · rfl
      · simp at hl ⊢; omega
  rw [e]
  rfl

theorem readJson_goArray (vs : List Text) : readJson fl (goArray vs) = some (.arr (vs.map .str)) := by
  have hl := goItems_length vs
  unfold readJson goArray
  have e : readValue (fl := fl) (2 * ('[' :: goItems vs ++ [']']).length + 2) ('[' :: goItems vs ++ [']']) =
      some (.arr (vs.map .str), []) := by
    rw [readValue, List.cons_append, Json.skipWs_cons (by decide)]
    simp only
    rw [if_neg (by decide), if_pos trivial]
    cases vs with
    | nil => rfl
    | cons v vs =>
      have hh : (skipWs (goItems (v :: vs) ++ [']'])).head? = some '"' := by
        have : ∃ t, goItems (v :: vs) = '"' :: t := by
          cases vs with
          | nil => exact ⟨_, rfl⟩
          | cons x m =>
            rw [goItems]
            · exact ⟨_, rfl⟩
            · intro e; cases e
        obtain ⟨t, ht⟩ := this
        rw [ht, List.cons_append, Json.skipWs_cons (by decide)]
        rfl
      rw [hh, if_neg (by decide), readItems_go vs v _ []]
      · rfl
      · simp at hl ⊢; omega
  rw [e]
  rfl

/-! ## The way through the environment -/

/-- The configuration of a request, for Python. -/
def ConfigRequest.dict (r : ConfigRequest) : Conf.Dict :=
  r.config.map fun kv => (String.ofList kv.1, .str (String.ofList kv.2))

theorem goObject_ne (m : List (Text × Text)) : goObject m ≠ [] := by simp [goObject]

theorem secretKeys_text (r : ConfigRequest) : constructConfigSecretKeys r = goArray r.secretKeys := by
  unfold constructConfigSecretKeys
  split
  · next h => rw [h]; rfl
  · rfl

theorem texts_strings (vs : List Text) : texts (vs.map fun v => .str (String.ofList v)) = some (vs.map String.ofList) := by
  induction vs with
  | nil => rfl
  | cons v vs ih => rw [List.map_cons, texts, ih]; rfl

theorem childEnv_config (env : Conf.Environ) (r : ConfigRequest) (h : r.config ≠ []) :
    childEnv env r "PULUMI_CONFIG" = some (String.ofList (goObject r.config)) := by
  have : constructConfig r = goObject r.config := by rw [constructConfig, if_neg h]
  rw [childEnv, if_pos ⟨rfl, by rw [this]; exact goObject_ne _⟩, this]

theorem childEnv_noConfig (env : Conf.Environ) (r : ConfigRequest) (h : r.config = []) :
    childEnv env r "PULUMI_CONFIG" = env "PULUMI_CONFIG" := by
  have : constructConfig r = [] := by rw [constructConfig, if_pos h]
  rw [childEnv, if_neg (by rw [this]; simp), if_neg (by rintro ⟨h, _⟩; revert h; decide)]

theorem childEnv_keys (env : Conf.Environ) (r : ConfigRequest) :
    childEnv env r "PULUMI_CONFIG_SECRET_KEYS" = some (String.ofList (goArray r.secretKeys)) := by
  rw [childEnv, if_neg (by rintro ⟨h, _⟩; revert h; decide), if_pos, secretKeys_text]
  exact ⟨rfl, by rw [secretKeys_text]; simp [goArray]⟩

theorem childEnv_other (env : Conf.Environ) (r : ConfigRequest) (name : String) (h1 : name ≠ "PULUMI_CONFIG")
    (h2 : name ≠ "PULUMI_CONFIG_SECRET_KEYS") : childEnv env r name = env name := by
  rw [childEnv, if_neg (fun h => h1 h.1), if_neg (fun h => h2 h.1)]

theorem secretKeysEnv_child {py : Conf.Py} (hpy : ReadsJson fl py) (env : Conf.Environ) (r : ConfigRequest) :
    Conf.secretKeysEnv py (childEnv env r) = .ok (.list (r.secretKeys.map fun v => .str (String.ofList v))) := by
  unfold Conf.secretKeysEnv
  rw [childEnv_keys]
  simp only
  rw [hpy.array _ r.secretKeys (by rw [String.toList_ofList]; exact readJson_goArray _)]

theorem configEnv_child {py : Conf.Py} (hpy : ReadsJson fl py) (env : Conf.Environ) (r : ConfigRequest)
    (hnd : (r.config.map (·.1)).Nodup) (h : r.config ≠ []) : Conf.configEnv py (childEnv env r) = .ok (.dict r.dict) := by
  unfold Conf.configEnv
  rw [childEnv_config _ _ h]
  simp only
  rw [hpy.object _ r.config hnd (by rw [String.toList_ofList]; exact readJson_goObject _)]
  rfl

theorem lookup_map_nodup (m : List (Text × Text)) (hnd : (m.map (·.1)).Nodup) (k v : Text) (h : (k, v) ∈ m) :
    Conf.Dict.value (m.map fun kv => (String.ofList kv.1, Async.Val.str (String.ofList kv.2))) (String.ofList k) =
      some (.str (String.ofList v)) := by
  unfold Conf.Dict.value
  have inj : ∀ a b : Text, String.ofList a = String.ofList b → a = b := by
    intro a b e
    have := congrArg String.toList e
    simpa using this
  have hlk : ∀ (l : List (Text × Text)), (l.map (·.1)).Nodup → (k, v) ∈ l →
      (l.map fun kv => (String.ofList kv.1, Async.Val.str (String.ofList kv.2))).lookup (String.ofList k) =
        some (.str (String.ofList v)) := by
    intro l hl hm
    induction l with
    | nil => cases hm
    | cons x l ih =>
      simp only [List.map_cons, List.nodup_cons] at hl
      rw [List.map_cons, List.lookup_cons]
      rcases List.mem_cons.1 hm with e | e
      · subst e; simp
      · have hne : x.1 ≠ k := by
          rintro rfl
          exact hl.1 (List.mem_map.2 ⟨_, e, rfl⟩)
        have : (String.ofList k == String.ofList x.1) = false := by
          simp only [beq_eq_false_iff_ne, ne_eq]
          intro e'; exact hne (inj _ _ e').symm
        rw [this]
        exact ih hl.2 e
  rw [← List.map_reverse]
  refine hlk _ ?_ (by simpa using h)
  rw [List.map_reverse]
  exact List.nodup_reverse.2 hnd

theorem lookup_map_none (m : List (Text × Text)) (k : Text) (h : ∀ v, (k, v) ∉ m) :
    Conf.Dict.value (m.map fun kv => (String.ofList kv.1, Async.Val.str (String.ofList kv.2))) (String.ofList k) = none ∧
    (m.map fun kv => (String.ofList kv.1, Async.Val.str (String.ofList kv.2))).lookup (String.ofList k) = none := by
  have hlk : ∀ (l : List (Text × Text)), (∀ v, (k, v) ∉ l) →
      (l.map fun kv => (String.ofList kv.1, Async.Val.str (String.ofList kv.2))).lookup (String.ofList k) = none := by
    intro l hl
    induction l with
    | nil => rfl
    | cons x l ih =>
      rw [List.map_cons, List.lookup_cons]
      have : (String.ofList k == String.ofList x.1) = false := by
        simp only [beq_eq_false_iff_ne, ne_eq]
        intro e'
        have e := congrArg String.toList e'
        simp only [String.toList_ofList] at e
        exact hl x.2 (by rw [e]; exact List.mem_cons_self ..)
      rw [this]
      exact ih fun v hv => hl v (List.mem_cons_of_mem _ hv)
  refine ⟨?_, hlk m h⟩
  unfold Conf.Dict.value
  rw [← List.map_reverse]
  exact hlk _ fun v hv => h v (by simpa using hv)

/-! ## The properties -/

/-- C121: what a request configures is what the program reads, whatever characters it has and whatever the environment of the
host: each key has its value, and is a secret exactly if the request says so. -/
theorem config_arrives {py : Conf.Py} (hpy : ReadsJson fl py) (env : Conf.Environ) (h : Conf.History) (c : Nat)
    (r : ConfigRequest) (hnd : (r.config.map (·.1)).Nodup) (k v : Text) (hk : (k, v) ∈ r.config) :
    ∃ s, execConfigure py (childEnv env r) (Conf.after h) c = .ok s ∧
      Conf.getConfig py (childEnv env r) s c (String.ofList k) = .ok (.str (String.ofList v)) ∧
      (Conf.isConfigSecret s c (String.ofList k) = true ↔ k ∈ r.secretKeys) := by
  have hne : r.config ≠ [] := by intro e; rw [e] at hk; cases hk
  have he : execConfigure py (childEnv env r) (Conf.after h) c =
      .ok (Conf.after (.setAll c r.dict (some (r.secretKeys.map String.ofList)) :: h)) := by
    unfold execConfigure
    rw [configEnv_child hpy env r hnd hne, secretKeysEnv_child hpy]
    simp only
    rw [texts_strings]
    rfl
  refine ⟨_, he, ?_, ?_⟩
  · refine Conf.getConfig_resolves py _ _ c _ _ (.explicit ?_)
    rw [Conf.setAll_isolates, if_pos rfl]
    exact lookup_map_nodup _ hnd k v hk
  · rw [Conf.secret_keys]
    simp only [Conf.secretsSeen, if_true]
    constructor
    · intro hm
      obtain ⟨a, ha, e⟩ := List.mem_map.1 hm
      have := congrArg String.toList e
      simp only [String.toList_ofList] at this
      rwa [← this]
    · intro hm
      exact List.mem_map.2 ⟨k, hm, rfl⟩

/-- C121 (what holds): a key that a request does not configure has no value, if the host's own environment has no variable for
it, the request configures something, and the key's own variable is not the one for the keys of secrets. -/
theorem config_absent_partial {py : Conf.Py} (hpy : ReadsJson fl py) (env : Conf.Environ) (h : Conf.History) (c : Nat)
    (r : ConfigRequest) (hnd : (r.config.map (·.1)).Nodup) (hne : r.config ≠ []) (k : Text) (hk : ∀ v, (k, v) ∉ r.config)
    (hown : env (Conf.envKey (String.ofList k)) = none)
    (hclash : Conf.envKey (String.ofList k) ≠ "PULUMI_CONFIG_SECRET_KEYS") :
    ∃ s, execConfigure py (childEnv env r) (Conf.after h) c = .ok s ∧
      Conf.getConfig py (childEnv env r) s c (String.ofList k) = .ok .none := by
  have he : execConfigure py (childEnv env r) (Conf.after h) c =
      .ok (Conf.after (.setAll c r.dict (some (r.secretKeys.map String.ofList)) :: h)) := by
    unfold execConfigure
    rw [configEnv_child hpy env r hnd hne, secretKeysEnv_child hpy]
    simp only
    rw [texts_strings]
    rfl
  obtain ⟨h1, h2⟩ := lookup_map_none r.config k hk
  refine ⟨_, he, ?_⟩
  refine Conf.getConfig_resolves py _ _ c _ _ (.unset (kvs := r.dict) ?_ ?_ (childEnv_config env r hne) ?_ h2)
  · rw [Conf.setAll_isolates, if_pos rfl]
    exact h1
  · rw [childEnv_other _ _ _ _ hclash]
    · exact hown
    · intro e
      have := congrArg String.length e
      simp [Conf.envKey, String.length_append] at this
      have h13 : "PULUMI_CONFIG".length = 13 := rfl
      have h14 : "PULUMI_CONFIG_".length = 14 := rfl
      omega
  · exact hpy.object _ r.config hnd (by rw [String.toList_ofList]; exact readJson_goObject _)

/-- C121, the code's failing: in a project called `secret`, the configuration `keys` always has a value, although nobody
configured it: the list of the keys of secrets. -/
theorem secret_keys_leak {py : Conf.Py} (hpy : ReadsJson fl py) (env : Conf.Environ) (h : Conf.History) (c : Nat)
    (r : ConfigRequest) (hnd : (r.config.map (·.1)).Nodup) (hne : r.config ≠ []) (hk : ∀ v, ("secret:keys".toList, v) ∉ r.config) :
    ∃ s, execConfigure py (childEnv env r) (Conf.after h) c = .ok s ∧
      Conf.getConfig py (childEnv env r) s c "secret:keys" = .ok (.str (String.ofList (goArray r.secretKeys))) := by
  have he : execConfigure py (childEnv env r) (Conf.after h) c =
      .ok (Conf.after (.setAll c r.dict (some (r.secretKeys.map String.ofList)) :: h)) := by
    unfold execConfigure
    rw [configEnv_child hpy env r hnd hne, secretKeysEnv_child hpy]
    simp only
    rw [texts_strings]
    rfl
  obtain ⟨h1, _⟩ := lookup_map_none r.config "secret:keys".toList hk
  refine ⟨_, he, ?_⟩
  refine Conf.getConfig_resolves py _ _ c _ _ (.own ?_ ?_)
  · rw [Conf.setAll_isolates, if_pos rfl]
    exact h1
  · have : Conf.envKey "secret:keys" = "PULUMI_CONFIG_SECRET_KEYS" := by decide
    rw [this]
    exact childEnv_keys env r

/-- C121, the code's failing: if a request configures nothing, the program reads the configuration in the host's own
environment, for example that of a program that started the host through the Automation API; and no key of it is a secret. -/
theorem inherited_config {py : Conf.Py} (hpy : ReadsJson fl py) (env : Conf.Environ) (h : Conf.History) (c : Nat)
    (outer : ConfigRequest) (hnd : (outer.config.map (·.1)).Nodup) (k v : Text) (hk : (k, v) ∈ outer.config)
    (inner : ConfigRequest) (hin : inner.config = []) (hsec : inner.secretKeys = []) :
    ∃ s, execConfigure py (childEnv (childEnv env outer) inner) (Conf.after h) c = .ok s ∧
      Conf.getConfig py (childEnv (childEnv env outer) inner) s c (String.ofList k) = .ok (.str (String.ofList v)) ∧
      Conf.isConfigSecret s c (String.ofList k) = false := by
  have hne : outer.config ≠ [] := by intro e; rw [e] at hk; cases hk
  have hc : Conf.configEnv py (childEnv (childEnv env outer) inner) = .ok (.dict outer.dict) := by
    have := configEnv_child hpy env outer hnd hne
    unfold Conf.configEnv at this ⊢
    rwa [childEnv_noConfig _ _ hin]
  have he : execConfigure py (childEnv (childEnv env outer) inner) (Conf.after h) c =
      .ok (Conf.after (.setAll c outer.dict (some []) :: h)) := by
    unfold execConfigure
    rw [hc, secretKeysEnv_child hpy, hsec]
    rfl
  refine ⟨_, he, ?_, ?_⟩
  · refine Conf.getConfig_resolves py _ _ c _ _ (.explicit ?_)
    rw [Conf.setAll_isolates, if_pos rfl]
    exact lookup_map_nodup _ hnd k v hk
  · rw [Bool.eq_false_iff, ne_eq, Conf.secret_keys]
    simp [Conf.secretsSeen]

/-! ## Examples -/

/-- JSON strings as Python values, for the examples. -/
def ofStr : J Json.wholeFloats → Async.Val
  | .str v => .str (String.ofList v)
  | _ => .none

/-- A `json.loads` for objects and arrays of texts. -/
def exampleLoads (s : String) : Option Async.Val :=
  match readJson Json.wholeFloats s.toList with
  | some (.obj kvs) => some (.dict (kvs.map fun kv => (String.ofList kv.1, ofStr kv.2)))
  | some (.arr js) => some (.list (js.map ofStr))
  | _ => none

/-- There is a Python that reads JSON. -/
theorem example_reads : ReadsJson Json.wholeFloats ⟨exampleLoads, fun _ => none, fun _ => none⟩ where
  object s m _ h := by
    show exampleLoads s = _
    unfold exampleLoads
    rw [h]
    simp [Function.comp_def, ofStr]
  array s vs h := by
    show exampleLoads s = _
    unfold exampleLoads
    rw [h]
    simp [Function.comp_def, ofStr]

def exampleConfig : ConfigRequest where
  config := [("aws:region".toList, "eu-west-1".toList), ("web:motto".toList, "<\"a\" & \\\n\u2028é>".toList)]
  secretKeys := ["web:motto".toList]

example : (exampleConfig.config.map (·.1)).Nodup ∧ ("web:motto".toList, "<\"a\" & \\\n\u2028é>".toList) ∈ exampleConfig.config := by
  decide

example : goObject [("a".toList, "<\n\"".toList)] = "{\"a\":\"\\u003c\\n\\\"\"}".toList := by decide

/-- What the program reads in a project called `secret`. -/
example : ∃ s, execConfigure ⟨exampleLoads, fun _ => none, fun _ => none⟩ (childEnv (fun _ => none) exampleConfig)
      (Conf.after []) 0 = .ok s ∧
    Conf.getConfig ⟨exampleLoads, fun _ => none, fun _ => none⟩ (childEnv (fun _ => none) exampleConfig) s 0 "secret:keys" =
      .ok (.str "[\"web:motto\"]") := by
  obtain ⟨s, h1, h2⟩ := secret_keys_leak example_reads (fun _ => none) [] 0 exampleConfig (by decide) (by decide) (by
    intro v hv
    simp [exampleConfig] at hv)
  exact ⟨s, h1, h2⟩

end Pulumi.Exec
