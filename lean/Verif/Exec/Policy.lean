import Verif.Conf.Theorems

/-!
# Policy packs

`python -m pulumi.policy`: `/repo/sdk/python/lib/pulumi/policy/__main__.py`.
-/

namespace Pulumi.Exec

open Async (Val)

/-- How the program of a policy pack ends. -/
inductive PolicyEnd
  | returned
  /-- an `Exception` -/
  | raised
  /-- `SystemExit` with a code -/
  | exit (code : Nat)
  deriving DecidableEq, Repr

/-- `Settings` as far as policy packs set them (48-56). -/
structure PolicySettings where
  project : String
  stack : String
  dryRun : Bool
  organization : Option String
  deriving DecidableEq, Repr

/-- What the program of a policy pack sees when it begins. -/
structure PolicyStart where
  program : String
  config : Conf.State
  /-- `none`: the settings are those that the SDK has when it is imported -/
  settings : Option PolicySettings

inductive PolicyResult
  /-- fewer than two arguments (25-33) -/
  | usage
  /-- the configuration in the environment is not an object of JSON (38-39) -/
  | badConfig
  | ran (s : PolicyStart) (e : PolicyEnd)

/-- The loop of 39-40. -/
def setEach (s : Conf.State) (c : Nat) : Conf.Dict → Conf.State
  | [] => s
  | (k, v) :: m => setEach (Conf.setConfig s c k v) c m

/-- Lines 43-56. -/
def policySettings (env : Conf.Environ) : Option PolicySettings :=
  match env "PULUMI_PROJECT", env "PULUMI_STACK", env "PULUMI_DRY_RUN" with
  | some p, some s, some d => some ⟨p, s, d = "true", env "PULUMI_ORGANIZATION"⟩
  | _, _, _ => none

/-- `main` (24-72); `argv` is without the name of the module, `run` is the program. -/
def policyMain (py : Conf.Py) (env : Conf.Environ) (s : Conf.State) (c : Nat) (argv : List String)
    (run : PolicyStart → PolicyEnd) : PolicyResult :=
  match argv with
  | _ :: program :: _ =>
    match Conf.configEnv py env with
    | .ok (.dict m) =>
      let st : PolicyStart := ⟨program, setEach s c m, policySettings env⟩
      .ran st (run st)
    | _ => .badConfig
  | _ => .usage

/-- The exit code of the process (33, 71-72); an exception that is not caught ends Python with 1. -/
def policyExit : PolicyResult → Nat
  | .usage => 1
  | .badConfig => 1
  | .ran _ .returned => 0
  | .ran _ .raised => 1
  | .ran _ (.exit n) => n

/-! ## Lemmas -/

theorem setEach_after (h : Conf.History) (c : Nat) (m : Conf.Dict) :
    setEach (Conf.after h) c m = Conf.after ((m.map fun kv => Conf.Op.set c kv.1 kv.2).reverse ++ h) := by
  induction m generalizing h with
  | nil => rfl
  | cons kv m ih =>
    obtain ⟨k, v⟩ := kv
    rw [setEach]
    have e : Conf.setConfig (Conf.after h) c k v = Conf.after (Conf.Op.set c k v :: h) := rfl
    rw [e, ih]
    simp

theorem uses_sets (h : Conf.History) (c c' : Nat) (m : Conf.Dict) :
    Conf.uses ((m.map fun kv => Conf.Op.set c kv.1 kv.2) ++ h) c' = Conf.uses h c' := by
  induction m with
  | nil => rfl
  | cons kv m ih => simpa [Conf.uses] using ih

theorem written_sets (h : Conf.History) (c : Nat) (m : Conf.Dict) (k : String) :
    Conf.written ((m.map fun kv => Conf.Op.set c kv.1 kv.2) ++ h) (Conf.uses h c) k =
      (m.lookup k).or (Conf.written h (Conf.uses h c) k) := by
  induction m with
  | nil => rfl
  | cons kv m ih =>
    obtain ⟨k', v⟩ := kv
    rw [List.map_cons, List.cons_append, Conf.written, uses_sets, List.lookup_cons]
    by_cases hk : k' = k
    · subst hk; simp
    · have : (k == k') = false := by simpa using fun e => hk e.symm
      rw [if_neg (fun h => hk h.2), this, ih]

theorem secrets_sets (h : Conf.History) (c c' : Nat) (m : Conf.Dict) :
    Conf.secretsSeen ((m.map fun kv => Conf.Op.set c kv.1 kv.2) ++ h) c' = Conf.secretsSeen h c' := by
  induction m with
  | nil => rfl
  | cons kv m ih => simpa [Conf.secretsSeen] using ih

/-! ## The properties -/

/-- C123: a policy pack reads the configuration of the environment: each key has its value, whatever was set before and
whatever other variables there are. -/
theorem policy_config (py : Conf.Py) (env : Conf.Environ) (h : Conf.History) (c : Nat) (a program : String) (rest : List String)
    (run : PolicyStart → PolicyEnd) (m : Conf.Dict) (hm : Conf.configEnv py env = .ok (.dict m)) (k : String) (v : Val)
    (hv : Conf.Dict.value m k = some v) :
    ∃ s, policyMain py env (Conf.after h) c (a :: program :: rest) run = .ran s (run s) ∧ s.program = program ∧
      Conf.getConfig py env s.config c k = .ok v := by
  refine ⟨⟨program, setEach (Conf.after h) c m, policySettings env⟩, ?_, rfl, ?_⟩
  · simp only [policyMain, hm]
  · show Conf.getConfig py env (setEach (Conf.after h) c m) c k = _
    rw [setEach_after]
    refine Conf.getConfig_resolves py env _ c k v (.explicit ?_)
    rw [← List.map_reverse, uses_sets, written_sets]
    unfold Conf.Dict.value at hv
    rw [hv]; rfl

/-- C123, the code's failing: no key is a secret in a policy pack, whatever the environment says. -/
theorem policy_no_secrets (py : Conf.Py) (env : Conf.Environ) (c : Nat) (a program : String) (rest : List String)
    (run : PolicyStart → PolicyEnd) (s : PolicyStart) (e : PolicyEnd)
    (hr : policyMain py env Conf.State.init c (a :: program :: rest) run = .ran s e) (k : String) :
    Conf.isConfigSecret s.config c k = false := by
  unfold policyMain at hr
  simp only at hr
  split at hr
  · next m _ =>
    simp only [PolicyResult.ran.injEq] at hr
    rw [← hr.1]
    show Conf.isConfigSecret (setEach (Conf.after []) c m) c k = false
    rw [setEach_after, Bool.eq_false_iff, ne_eq, Conf.secret_keys, ← List.map_reverse, secrets_sets]
    simp [Conf.secretsSeen]
  · cases hr

/-- C123: the project, the stack and the mode are those of the environment if all three are there; else none of them is set. -/
theorem policy_settings (env : Conf.Environ) :
    (∀ p s d, env "PULUMI_PROJECT" = some p → env "PULUMI_STACK" = some s → env "PULUMI_DRY_RUN" = some d →
      policySettings env = some ⟨p, s, d == "true", env "PULUMI_ORGANIZATION"⟩) ∧
    (policySettings env = none ↔
      env "PULUMI_PROJECT" = none ∨ env "PULUMI_STACK" = none ∨ env "PULUMI_DRY_RUN" = none) := by
  constructor
  · intro p s d h1 h2 h3
    unfold policySettings
    rw [h1, h2, h3]
    by_cases hd : d = "true" <;> simp [hd]
  · unfold policySettings
    cases env "PULUMI_PROJECT" <;> cases env "PULUMI_STACK" <;> cases env "PULUMI_DRY_RUN" <;> simp

/-- C123: the exit code is 0 only if the program of the pack was run and returned, or asked for that code. -/
theorem policy_exit (py : Conf.Py) (env : Conf.Environ) (s : Conf.State) (c : Nat) (argv : List String)
    (run : PolicyStart → PolicyEnd) :
    policyExit (policyMain py env s c argv run) = 0 ↔
      ∃ a program rest st, argv = a :: program :: rest ∧ policyMain py env s c argv run = .ran st (run st) ∧
        st.program = program ∧ (run st = .returned ∨ run st = .exit 0) := by
  constructor
  · intro h
    match argv, h with
    | [], h => cases h
    | [a], h => cases h
    | a :: program :: rest, h =>
      cases hc : Conf.configEnv py env with
      | error e => simp [policyMain, hc, policyExit] at h
      | ok w =>
        cases w with
        | dict m =>
          refine ⟨a, program, rest, ⟨program, setEach s c m, policySettings env⟩, rfl, by simp [policyMain, hc], rfl, ?_⟩
          simp only [policyMain, hc] at h
          cases hr : run ⟨program, setEach s c m, policySettings env⟩ with
          | returned => exact .inl rfl
          | raised => rw [hr] at h; cases h
          | exit n => rw [hr] at h; right; exact congrArg _ h
        | _ => simp [policyMain, hc, policyExit] at h
  · rintro ⟨a, program, rest, st, rfl, h, _, hr⟩
    rw [h]
    rcases hr with hr | hr <;> rw [hr] <;> rfl

/-! ## Examples -/

example : ∃ (py : Conf.Py) (env : Conf.Environ) (m : Conf.Dict),
    Conf.configEnv py env = .ok (.dict m) ∧ Conf.Dict.value m "p:a" = some (.str "1") :=
  ⟨⟨fun _ => some (.dict [("p:a", .str "1")]), fun _ => none, fun _ => none⟩, fun _ => some "{\"p:a\":\"1\"}", [("p:a", .str "1")], rfl, rfl⟩

example : policySettings (fun n => if n = "PULUMI_DRY_RUN" then some "true" else if n = "PULUMI_ORGANIZATION" then none else some n) =
    some ⟨"PULUMI_PROJECT", "PULUMI_STACK", true, none⟩ := by decide

end Pulumi.Exec
