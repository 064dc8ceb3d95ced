import Verif.Conf.Lemmas

/-!
# Configuration: the properties
-/
namespace Pulumi.Conf
open Pulumi.Async Pulumi.Output

/-! ## C37 -/

/-- **C37** After any history, in any context, a key has the value that precedence gives it. -/
theorem getConfig_resolves (py : Py) (env : Environ) (h : History) (c : Nat) (k : String) (v : Val)
    (hr : Resolves py env (written h (uses h c) k) k v) : getConfig py env (after h) c k = .ok v := by
  unfold getConfig
  rw [explicit_eq]
  cases hr with
  | explicit h1 => rw [h1]
  | own h1 h2 => rw [h1, h2]
  | map h1 h2 h3 h4 h5 => rw [h1, h2]; simp [configEnv, h3, h4, lookupEnv, h5]
  | unset h1 h2 h3 h4 h5 => rw [h1, h2]; simp [configEnv, h3, h4, lookupEnv, h5]
  | null h1 h2 h3 h4 => rw [h1, h2]; simp [configEnv, h3, h4, lookupEnv]
  | noMap h1 h2 h3 => rw [h1, h2]; simp [configEnv, h3, lookupEnv]

/-- **C37** Precedence gives every key a value, unless PULUMI_CONFIG is something other than a JSON object or null. -/
theorem resolves_total (py : Py) (env : Environ) (hg : GoodEnv py env) (explicit : Option Val) (k : String) :
    ∃ v, Resolves py env explicit k v := by
  cases explicit with
  | some v => exact ⟨v, .explicit rfl⟩
  | none =>
    rcases h1 : env (envKey k) with _ | s
    · rcases h2 : env "PULUMI_CONFIG" with _ | t
      · exact ⟨_, .noMap rfl h1 h2⟩
      · rcases hg t h2 with h3 | ⟨kvs, h3⟩
        · exact ⟨_, .null rfl h1 h2 h3⟩
        · rcases h4 : kvs.lookup k with _ | v
          · exact ⟨_, .unset rfl h1 h2 h3 h4⟩
          · exact ⟨v, .map rfl h1 h2 h3 h4⟩
    · exact ⟨_, .own rfl h1⟩

/-- **C37** With a PULUMI_CONFIG that is not JSON, exactly the keys found nowhere before it raise. -/
theorem bad_environment (py : Py) (env : Environ) (h : History) (c : Nat) (k : String) (t : String)
    (ht : env "PULUMI_CONFIG" = some t) (hbad : py.loads t = none) :
    getConfig py env (after h) c k = .error .decode ↔ written h (uses h c) k = none ∧ env (envKey k) = none := by
  unfold getConfig
  rw [explicit_eq]
  cases h1 : written h (uses h c) k with
  | some v => simp
  | none =>
    cases h2 : env (envKey k) with
    | some s => simp
    | none => simp [configEnv, ht, hbad]

/-- **C37** Setting a key: afterwards the contexts that use the same configuration see the new value for that key;
everything else that is explicitly set, anywhere, is as before. -/
theorem set_then_get (h : History) (c : Nat) (k : String) (v : Val) (c' : Nat) (k' : String) :
    written (.set c k v :: h) (uses (.set c k v :: h) c') k' =
      if uses h c' = uses h c ∧ k' = k then some v else written h (uses h c') k' := by
  simp only [written, uses]
  by_cases h1 : uses h c = uses h c'
  · by_cases h2 : k = k'
    · simp [h1, h2]
    · simp [h2, Ne.symm h2]
  · simp [h1, Ne.symm h1]

/-- **C37** Hence a value set is the value read, whatever the environment. -/
theorem set_is_read (py : Py) (env : Environ) (h : History) (c : Nat) (k : String) (v : Val) :
    getConfig py env (after (.set c k v :: h)) c k = .ok v := by
  apply getConfig_resolves
  refine .explicit ?_
  rw [set_then_get]
  simp

/-- No configuration has a number beyond the length of the history. -/
theorem uses_le (h : History) : ∀ c, uses h c ≤ h.length := by
  induction h with
  | nil => intro c; simp [uses]
  | cons op h ih =>
    intro c
    cases op with
    | set => exact Nat.le_succ_of_le (ih c)
    | setAll c' m ss =>
      simp only [uses]
      split
      · simp
      · exact Nat.le_succ_of_le (ih c)
    | fork c1 c2 =>
      simp only [uses]
      split
      · exact Nat.le_succ_of_le (ih c1)
      · exact Nat.le_succ_of_le (ih c)

/-- **C37** Setting everything: the context sees exactly the given entries, all other contexts what they saw before. -/
theorem setAll_isolates (h : History) (c : Nat) (m : Dict) (ss : Option (List String)) (c' : Nat) (k : String) :
    written (.setAll c m ss :: h) (uses (.setAll c m ss :: h) c') k =
      if c' = c then Dict.value m k else written h (uses h c') k := by
  simp only [written, uses]
  by_cases h1 : c' = c
  · simp [h1]
  · have := uses_le h c'
    have h2 : ¬ (uses h c' = h.length + 1) := by omega
    simp [h1, h2]

/-- **C37** A task starts with its creator's configuration, and nobody else notices. -/
theorem fork_inherits (h : History) (c c' x : Nat) (k : String) :
    written (.fork c c' :: h) (uses (.fork c c' :: h) x) k =
      if x = c' then written h (uses h c) k else written h (uses h x) k := by
  simp only [written, uses]
  by_cases h1 : x = c' <;> simp [h1]

/-- **Not so** that a task's settings are its own: until one of them replaces the whole configuration, what a task sets is
seen by its creator. -/
theorem set_in_task_leaks (py : Py) (env : Environ) (h : History) (c c' : Nat) (k : String) (v : Val) :
    getConfig py env (after (.set c' k v :: .fork c c' :: h)) c k = .ok v := by
  apply getConfig_resolves
  refine .explicit ?_
  rw [set_then_get]
  by_cases hc : c = c'
  · simp [hc]
  · simp [uses, hc]

/-- **C37** The secret keys: those given last in the context or, before it started, in its creator; setting everything
without a list of secret keys keeps the old list. -/
theorem secret_keys (h : History) (c : Nat) (k : String) :
    isConfigSecret (after h) c k = true ↔ k ∈ secretsSeen h c := by
  unfold isConfigSecret
  rw [secrets_eq]
  simp

/-- **C37** The environment variable of a key. -/
theorem envKey_spec (k : String) :
    ∃ cs, envKey k = "PULUMI_CONFIG_" ++ String.ofList cs ∧ All2 Appears k.toList cs := by
  refine ⟨_, rfl, ?_⟩
  induction k.toList with
  | nil => exact .nil
  | cons c cs ih =>
    refine .cons ?_ ih
    have ht := scrub_toNat c
    by_cases h1 : ('A' ≤ c ∧ c ≤ 'Z') ∨ ('0' ≤ c ∧ c ≤ '9')
    · have : scrub c = c := by simp only [scrub, h1, or_true, if_true]
      rw [this]
      exact .same h1
    · by_cases h2 : 'a' ≤ c ∧ c ≤ 'z'
      · refine .upper h2.1 h2.2 ?_
        rw [char_le, char_le] at h2
        have e1 : 'a'.toNat = 97 := rfl
        have e2 : 'z'.toNat = 122 := rfl
        rw [e1, e2] at h2
        rw [ht, if_neg (by omega), if_pos (by omega)]
        omega
      · have hn : ¬ AsciiAlnum c := fun h => by
          rcases h with h | h | h
          · exact h1 (.inl h)
          · exact h1 (.inr h)
          · exact h2 h
        have : scrub c = '_' := by
          by_cases hu : c = '_'
          · subst hu; rfl
          · simp only [scrub, hu, false_or, h1, if_false, h2]
        rw [this]
        exact .other hn

/-- **C37** Two keys share an environment variable exactly when they have the same length and their characters are
pairwise the same up to case, or neither ASCII letters nor digits. -/
theorem envKey_shared_iff (k k' : String) :
    envKey k = envKey k' ↔ k.toList.length = k'.toList.length ∧ ∀ a b, (a, b) ∈ k.toList.zip k'.toList → Confused a b := by
  have h1 : envKey k = envKey k' ↔ k.toList.map scrub = k'.toList.map scrub := by
    constructor
    · intro h
      have := congrArg String.toList h
      simpa [envKey, String.toList_append] using this
    · intro h
      unfold envKey
      rw [h]
  rw [h1]
  generalize k.toList = as
  generalize k'.toList = bs
  induction as generalizing bs with
  | nil => cases bs <;> simp
  | cons a as ih =>
    cases bs with
    | nil => simp
    | cons b bs =>
      simp only [List.map_cons, List.cons.injEq, scrub_eq_iff, ih bs, List.length_cons, Nat.add_right_cancel_iff,
        List.zip_cons_cons, List.mem_cons, Prod.mk.injEq]
      constructor
      · rintro ⟨h1, h2, h3⟩
        refine ⟨h2, fun x y hxy => ?_⟩
        rcases hxy with ⟨rfl, rfl⟩ | hxy
        · exact h1
        · exact h3 x y hxy
      · rintro ⟨h1, h2⟩
        exact ⟨h2 a b (.inl ⟨rfl, rfl⟩), h1, fun x y hxy => h2 x y (.inr hxy)⟩

/-! ## C38 -/

theorem convert_reads (py : Py) (kind : Kind) (v : Val) (r : Option Val) : Reads py kind v r ↔ convert py kind v = r := by
  constructor
  · intro h
    cases h with
    | str => rfl
    | yes hs => rcases hs with rfl | rfl <;> simp [convert]
    | no hs => rcases hs with rfl | rfl <;> simp [convert]
    | notBool hs =>
      cases v <;> simp only [convert]
      rename_i s
      obtain ⟨h1, h2, h3, h4⟩ := hs s rfl
      simp [h1, h2, h3, h4]
    | int => rfl
    | float => rfl
    | object => rfl
    | notObject hs =>
      cases v <;> simp only [convert]
      rename_i s
      exact absurd rfl (hs s)
  · rintro rfl
    cases kind with
    | str => exact .str
    | int => exact .int
    | float => exact .float
    | bool =>
      cases v with
      | str s =>
        simp only [convert]
        split
        · rename_i h; exact .yes h
        · rename_i h1
          split
          · rename_i h; exact .no h
          · rename_i h2
            refine .notBool fun t ht => ?_
            cases ht
            simp only [not_or] at h1 h2
            exact ⟨h1.1, h1.2, h2.1, h2.2⟩
      | _ => exact .notBool (by intro s h; cases h)
    | object =>
      cases v with
      | str s => exact .object
      | _ => exact .notObject (by intro s h; cases h)

/-- What a getter finds for a key: nothing, something that does not read as the kind, or a value. -/
inductive Finds (py : Py) (kind : Kind) : Val → Option Val → Prop
  | unset : Finds py kind .none (some .none)
  | set {v r} : v ≠ .none → Reads py kind v r → Finds py kind v r

/-- Some kind and value always have a reading. -/
theorem finds_total (py : Py) (kind : Kind) (v : Val) : ∃ r, Finds py kind v r := by
  by_cases hn : v = .none
  · subst hn; exact ⟨_, .unset⟩
  · exact ⟨_, .set hn ((convert_reads py kind v _).2 rfl)⟩

theorem get__finds {py : Py} {env : Environ} {s : State} {c : Nat} {name : String} {kind : Kind} {key : String} {v : Val}
    {r : Option Val} (hv : getConfig py env s c (fullKey name key) = .ok v) (hf : Finds py kind v r) :
    get_ py env s c name kind key =
      match r with
      | none => .error (.badType (fullKey name key) v kind)
      | some x => .ok x := by
  unfold get_
  rw [hv]
  cases hf with
  | unset => rfl
  | set hne hr =>
    rw [convert_reads] at hr
    cases v <;> first | exact absurd rfl hne | (simp only [hr]; cases r <;> rfl)

/-- **C38** The optional getters: the value read, the default when the key is unset (or reads as None), an error naming
key, value and kind when it does not read. -/
theorem get_spec (py : Py) (env : Environ) (s : State) (c : Nat) (name : String) (kind : Kind) (key : String) (dflt v : Val)
    (r : Option Val) (hv : getConfig py env s c (fullKey name key) = .ok v) (hf : Finds py kind v r) :
    (r = none → get py env s c name kind key dflt = .error (.badType (fullKey name key) v kind)) ∧
    (r = some .none → get py env s c name kind key dflt = .ok dflt) ∧
    (∀ x, r = some x → x ≠ .none → get py env s c name kind key dflt = .ok x) := by
  have := get__finds hv hf
  refine ⟨?_, ?_, ?_⟩
  · rintro rfl; simp [get, this]
  · rintro rfl; simp [get, this, orDefault]
  · rintro x rfl hx
    simp only [get, this]
    cases x <;> first | exact absurd rfl hx | rfl

/-- **C38** The required getters raise exactly when the key is unset or reads as None (missing), or does not read (wrong
type); otherwise they return what the optional ones do. -/
theorem require_spec (py : Py) (env : Environ) (s : State) (c : Nat) (name : String) (kind : Kind) (key : String) (v : Val)
    (r : Option Val) (hv : getConfig py env s c (fullKey name key) = .ok v) (hf : Finds py kind v r) :
    (r = none → require py env s c name kind key = .error (.badType (fullKey name key) v kind)) ∧
    (r = some .none → require py env s c name kind key = .error (.missing (fullKey name key))) ∧
    (∀ x, r = some x → x ≠ .none → require py env s c name kind key = .ok x) := by
  have := get__finds hv hf
  refine ⟨?_, ?_, ?_⟩
  · rintro rfl; simp [require, this]
  · rintro rfl; simp [require, this]
  · rintro x rfl hx
    unfold require
    rw [this]
    cases x <;> first | exact absurd rfl hx | rfl

/-- **C38** Secret getters succeed exactly as the plain ones do, with the same errors. -/
theorem secret_getters_agree (py : Py) (env : Environ) (s : State) (c : Nat) (name : String) (kind : Kind) (key : String)
    (dflt : Val) (dry : Bool) (fuel : Nat) :
    (∀ e, getSecret py env s c name kind key dflt dry fuel = .error e ↔ get py env s c name kind key dflt = .error e) ∧
    (getSecret py env s c name kind key dflt dry fuel = .ok none ↔ get py env s c name kind key dflt = .ok .none) ∧
    (∀ p, getSecret py env s c name kind key dflt dry fuel = .ok (some p) ↔
      ∃ x, get py env s c name kind key dflt = .ok x ∧ x ≠ .none ∧ p = secret dry fuel x) ∧
    (∀ e, requireSecret py env s c name kind key dry fuel = .error e ↔ require py env s c name kind key = .error e) ∧
    (∀ p, requireSecret py env s c name kind key dry fuel = .ok p ↔
      ∃ x, require py env s c name kind key = .ok x ∧ p = secret dry fuel x) := by
  unfold getSecret get requireSecret
  refine ⟨?_, ?_, ?_, ?_, ?_⟩
  · intro e
    cases get_ py env s c name kind key <;> simp
  · cases get_ py env s c name kind key with
    | error e => simp
    | ok v => simp only [Except.ok.injEq]; cases orDefault v dflt <;> simp [secretOf]
  · intro p
    cases get_ py env s c name kind key with
    | error e => simp
    | ok v =>
      simp only [Except.ok.injEq]
      cases h : orDefault v dflt <;> simp [secretOf, eq_comm]
  · intro e
    cases require py env s c name kind key <;> simp
  · intro p
    cases require py env s c name kind key with
    | error e => simp
    | ok v => simp [eq_comm]

/-- **C38** Every output a secret getter returns is secret, known, without dependencies and has the plain getter's value,
in previews as in updates, provided that value is JSON (`fuel` bounds the nesting that `from_input` follows). -/
theorem secret_getters_secret {roots : Nat → Option Prog} {d : Config} (hd : Completes roots d) (py : Py)
    (env : Environ) (s : State) (c : Nat) (name : String) (kind : Kind) (key : String) (dflt : Val) (dry : Bool) (fuel : Nat)
    (p : Sync OutRef) (x : Val)
    (hp : (getSecret py env s c name kind key dflt dry fuel = .ok (some p) ∧ get py env s c name kind key dflt = .ok x) ∨
      (requireSecret py env s c name kind key dry fuel = .ok p ∧ require py env s c name kind key = .ok x))
    {t n out n'} (hrun : Ran d t n p (.ok out) n') :
    d.futs out.secret = some (.ok (.bool true)) ∧
    (Json x → sizeOf x < fuel →
      Shows d.futs out { value := x, known := true, secret := true, deps := fun _ => False }) := by
  have hps : p = secret dry fuel x := by
    obtain ⟨_, _, h3, _, h5⟩ := secret_getters_agree py env s c name kind key dflt dry fuel
    rcases hp with ⟨h1, h2⟩ | ⟨h1, h2⟩
    · obtain ⟨y, hy, _, e⟩ := (h3 p).1 h1
      rw [h2] at hy
      cases hy
      exact e
    · obtain ⟨y, hy, e⟩ := (h5 p).1 h1
      rw [h2] at hy
      cases hy
      exact e
  subst hps
  obtain ⟨h1, o, m, h2, _, _, h3⟩ := secret_spec hd hrun
  refine ⟨h1, fun hj hsz => ?_⟩
  obtain ⟨o', ho, hsh, _⟩ := fromInput_unwraps_partial hd h2 (json_unwraps dry d.futs fuel x hj hsz) (Nat.le_refl _)
  cases ho
  have hk := json_known hj
  have := h3 _ (fun _ => json_no_unknown hj) hsh
  simp only [View.ofPlain, hk, Bool.not_false] at this
  exact this

/-- **Not so** that `require*` raises exactly when the value is missing: a key set to the JSON text `null` is reported as
missing. -/
theorem null_object_missing (py : Py) (env : Environ) (s : State) (c : Nat) (name key text : String)
    (hv : getConfig py env s c (fullKey name key) = .ok (.str text)) (hnull : py.loads text = some .none) :
    require py env s c name .object key = .error (.missing (fullKey name key)) :=
  (require_spec py env s c name .object key (.str text) _ hv (.set (by simp) (hnull ▸ Reads.object))).2.1 rfl

/-! ## C49: bags with different names -/

/-- **C49** For the same key, differently named bags have different full keys, so what is explicitly set in one is not
seen in the other. -/
theorem bags_separate (h : History) (c c' : Nat) (name name' key : String) (v : Val) (hne : name ≠ name') :
    fullKey name key ≠ fullKey name' key ∧
    written (.set c (fullKey name key) v :: h) (uses h c') (fullKey name' key) =
      written h (uses h c') (fullKey name' key) := by
  have hk : fullKey name key ≠ fullKey name' key := by
    intro he
    have := congrArg String.toList he
    simp only [fullKey, String.toList_append, List.append_assoc, List.append_cancel_right_eq] at this
    exact hne (String.toList_inj.1 this)
  exact ⟨hk, by simp [written, hk]⟩

/-- **C49** Nor is what the PULUMI_CONFIG map holds. The environment variables of the two bags differ too, unless their
names are pairwise confused character by character. -/
theorem bags_separate_environment (name name' key : String) :
    envKey (fullKey name key) = envKey (fullKey name' key) ↔
      name.toList.length = name'.toList.length ∧ ∀ a b, (a, b) ∈ name.toList.zip name'.toList → Confused a b := by
  rw [envKey_shared_iff]
  simp only [fullKey, String.toList_append, List.length_append, Nat.add_right_cancel_iff]
  constructor
  · rintro ⟨h1, h2⟩
    refine ⟨h1, fun a b hab => h2 a b ?_⟩
    rw [List.append_assoc, List.append_assoc, List.zip_append h1, List.mem_append]
    exact .inl hab
  · rintro ⟨h1, h2⟩
    refine ⟨h1, fun a b hab => ?_⟩
    rw [List.append_assoc, List.append_assoc, List.zip_append h1, List.mem_append] at hab
    rcases hab with hab | hab
    · exact h2 a b hab
    · have : a = b := by
        have hz : ∀ (l : List Char), (a, b) ∈ l.zip l → a = b := by
          intro l
          induction l with
          | nil => simp
          | cons x xs ih =>
            intro hm
            simp only [List.zip_cons_cons, List.mem_cons, Prod.mk.injEq] at hm
            rcases hm with ⟨h1, h2⟩ | hm
            · rw [h1, h2]
            · exact ih hm
        exact hz _ hab
      exact .inl this

/-- **Not so** in general, against the documentation of `Config`: bags named `my-app` and `my_app` share the values that
come from environment variables. -/
theorem bags_share_environment : envKey (fullKey "my-app" "key") = envKey (fullKey "my_app" "key") := by decide

/-- Nor for different keys: key `b:c` of bag `a` is key `c` of bag `a:b`. -/
theorem bags_share_keys : fullKey "a" "b:c" = fullKey "a:b" "c" := by decide

/-! ## The hypotheses can be met -/

def examplePy : Py where
  loads s := if s = "{}" then some (.dict []) else if s = "null" then some .none else none
  int v := match v with | .str "1" => some (.int 1) | _ => none
  float _ := none

def exampleEnv : Environ := fun k => if k = "PULUMI_CONFIG" then some "{}" else if k = "PULUMI_CONFIG_P_B" then some "1" else none

/-- A program sets everything, starts a task, and the task sets a key. -/
def exampleHistory : History := [.set 1 "p:a" (.str "true"), .fork 0 1, .setAll 0 [("p:o", .str "null")] (some ["p:o"])]

example : GoodEnv examplePy exampleEnv := by
  intro t ht
  cases ht
  exact .inr ⟨_, rfl⟩
example : get examplePy exampleEnv (after exampleHistory) 0 "p" .bool "a" .none = .ok (.bool true) := rfl
example : get examplePy exampleEnv (after exampleHistory) 0 "p" .int "b" .none = .ok (.int 1) := rfl
example : get examplePy exampleEnv (after exampleHistory) 0 "p" .int "z" (.int 7) = .ok (.int 7) := rfl
example : get examplePy exampleEnv (after exampleHistory) 0 "p" .int "a" .none =
    .error (.badType "p:a" (.str "true") .int) := rfl
example : require examplePy exampleEnv (after exampleHistory) 0 "p" .object "o" = .error (.missing "p:o") := rfl
example : isConfigSecret (after exampleHistory) 1 "p:o" = true := rfl
example : written exampleHistory (uses exampleHistory 2) "p:a" = none := rfl
example : envKey "p:b" = "PULUMI_CONFIG_P_B" := by decide
example : ∃ roots d t n out n', Completes roots d ∧ Ran d t n (secret true 9 (.bool true)) (.ok out) n' ∧
    getSecret examplePy exampleEnv (after exampleHistory) 0 "p" .bool "a" .none true 9 =
      .ok (some (secret true 9 (.bool true))) := by
  obtain ⟨d, r, n', hd, hr⟩ := main_ran (secret true 9 (.bool true))
  cases r with
  | ok out => exact ⟨_, d, _, _, out, _, hd, hr, rfl⟩
  | error e =>
    exfalso
    unfold secret at hr
    rcases hr.bind with ⟨o, m, h1, h2⟩ | ⟨e', h1, _⟩
    · rcases h2.bind with ⟨f, m', h3, h4⟩ | ⟨e', h3, _⟩
      · obtain ⟨_, h⟩ := mkOutput_no_raise' h4; cases h
      · obtain ⟨_, h⟩ := resolved_no_raise' h3; cases h
    · have hs := settled_of_completes hd
      obtain ⟨_, h, _⟩ := fromInput_unwraps_partial hd h1 (json_unwraps true d.futs 9 (.bool true) .bool (by decide)) (Nat.le_refl _)
      cases h

end Pulumi.Conf
