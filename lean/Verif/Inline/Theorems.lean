import Verif.Inline.Traces
import Verif.Conf.Theorems

/-!
# Inline programs: the properties
-/
namespace Pulumi.Inline
open Pulumi.Loop

/-! ## C69: programs of a process do not disturb each other -/

/-- **C69, in part** When inline programs of a process run one after the other and no cleanup fails, each does what it could have done in a
process of its own, whatever the programs before it did, failed ones included. -/
theorem sequential_runs_partial {p : Proc} (h : Sequential p) (hn : NoCrash p) {i : Nat} {r : Run} (hr : p.runs[i]? = some r) : Alone r :=
  alone_of_good (good_sequential h hn) hn hr

/-- The hypotheses are met: the first program fails, the second registers something and returns. -/
example : ∃ p, Sequential p ∧ NoCrash p ∧ (p.runs[0]?.map (·.main)) = some (.raised 9) ∧ (p.runs[1]?.map (·.main)) = some .returned :=
  ⟨_, one_then_other, by simp [NoCrash], rfl, rfl⟩

/-- **C69, in part** Of programs that run one after the other, one that returned has completed all its RPCs. -/
theorem returned_run_complete_partial {p : Proc} (h : Sequential p) (hn : NoCrash p) {i : Nat} {r : Run} (hr : p.runs[i]? = some r)
    (hm : r.main = .returned) : ∀ k, r.IsRpc k → r.resultOf k = some .ok := by
  obtain ⟨s, h1, h2, h3, h4⟩ := sequential_runs_partial h hn hr
  rintro k ⟨t', ht', hk⟩
  have hlt : k < s.tasks.length := by rw [h3]; exact (List.getElem?_eq_some_iff.mp ht').1
  obtain ⟨t'', h5, h6, h7⟩ := h4 k _ (List.getElem?_eq_getElem hlt)
  rw [ht'] at h5; cases h5
  have := (returned_complete h1 (by rw [h2, hm])).1 k ⟨_, List.getElem?_eq_getElem hlt, by rw [← h6, hk]⟩
  simp only [State.resultOf, List.getElem?_eq_getElem hlt, Option.bind_some] at this
  simp [Run.resultOf, ht', h7 _ this]

example : ∃ p r, Sequential p ∧ NoCrash p ∧ p.runs[1]? = some r ∧ r.main = .returned ∧ r.IsRpc 1 :=
  ⟨_, _, one_then_other, by simp [NoCrash], rfl, rfl, _, rfl, rfl⟩

/-- **C69, in part** Of programs that run one after the other, one whose RPC failed does not return. -/
theorem failed_run_raises_partial {p : Proc} (h : Sequential p) (hn : NoCrash p) {i : Nat} {r : Run} (hr : p.runs[i]? = some r)
    {k e : Nat} (hk : r.IsRpc k) (he : r.resultOf k = some (.exn e)) : r.main ≠ .returned := by
  intro hm
  have := returned_run_complete_partial h hn hr hm k hk
  rw [he] at this; cases this

example : ∃ p r, Sequential p ∧ NoCrash p ∧ p.runs[0]? = some r ∧ r.IsRpc 6 ∧ r.resultOf 6 = some (.exn 7) :=
  ⟨_, _, nested_fails, by simp [NoCrash], rfl, ⟨_, rfl, rfl⟩, rfl⟩

/-- **C69, not so** for programs that run at the same time: a program whose RPC failed can return, while a program that did nothing raises the
exception of the other. -/
theorem concurrent_failure_swapped : ∃ p r0 r1, Steps .init p ∧ p.runs[0]? = some r0 ∧ p.runs[1]? = some r1 ∧
    r0.IsRpc 1 ∧ r0.resultOf 1 = some (.exn 7) ∧ r0.main = .returned ∧ r0.phase = .closed ∧
    r1.tasks = [] ∧ r1.main = .raised 7 ∧ r1.phase = .closed :=
  ⟨_, _, _, swapped, rfl, rfl, ⟨_, rfl, rfl⟩, rfl, rfl, rfl, rfl, rfl, rfl⟩

/-- Neither run could have gone that way in a process of its own: the first would not have returned. -/
theorem swapped_not_alone : ∃ p r0, Steps .init p ∧ p.runs[0]? = some r0 ∧ ¬ Alone r0 := by
  refine ⟨_, _, swapped, rfl, ?_⟩
  rintro ⟨s, h1, h2, h3, h4⟩
  have hlt : 1 < s.tasks.length := by rw [h3]; decide
  obtain ⟨t', h5, h6, h7⟩ := h4 1 _ (List.getElem?_eq_getElem hlt)
  simp only [List.getElem?_cons_succ, List.getElem?_cons_zero, Option.some.injEq] at h5
  subst h5
  have := (returned_complete h1 h2).1 1 ⟨_, List.getElem?_eq_getElem hlt, h6.symm⟩
  simp only [State.resultOf, List.getElem?_eq_getElem hlt, Option.bind_some] at this
  have := h7 _ this
  cases this

/-- **C69, not so** even for programs that run one after the other, if the cleanup of the first fails: the next one does nothing and
raises the exception of the first. The first program makes a resource in an `apply` and that resource fails. -/
theorem cleanup_failure_poisons : ∃ p r0 r1, Sequential p ∧ p.runs[0]? = some r0 ∧ p.runs[1]? = some r1 ∧
    r0.over ∧ r0.main = .raised 7 ∧ r1.tasks = [] ∧ r1.main = .raised 7 :=
  ⟨_, _, _, poisoned, rfl, rfl, .inr ⟨7, rfl⟩, rfl, rfl, rfl⟩

/-! ## C70: the engine learns whether the program failed -/

/-- **C70, in part** The engine is told of a failure exactly if the program raised, except for the two kinds of exception below. -/
theorem response_failure_partial (e : Ended) (h1 : e ≠ .raised .unavailable) (h2 : e ≠ .raised (.run "")) :
    (response e).Failure ↔ e ≠ .returned := by
  cases e with
  | returned => simp [response, Response.Failure]
  | raised x =>
    cases x with
    | run msg => simpa [response, Response.Failure] using h2
    | unavailable => exact absurd rfl h1
    | rpc d => simp [response, Response.Failure]
    | other t => simp [response, Response.Failure]
    | base => simp [response, Response.Failure]

example : (response (.raised (.other "boom"))).Failure :=
  (response_failure_partial _ (by decide) (by decide)).mpr (by decide)

/-- **C70** A `RunError` is reported with its own message. -/
theorem run_error_message (msg : String) : response (.raised (.run msg)) = .response msg := rfl

/-- **C70** Of other exceptions the engine gets the text, after a prefix that tells errors of gRPC from those of the program. -/
theorem error_says_why (text : String) :
    response (.raised (.rpc text)) = .response ("RPC error: " ++ text) ∧
    response (.raised (.other text)) = .response ("python inline source runtime error: " ++ text) ∧
    response (.raised .base) = .failed := ⟨rfl, rfl, rfl⟩

/-- **C70** A run whose cleanup raised, or whose program ended with something that is no `Exception`, is a failed call for the engine, in
every process. -/
theorem crashed_is_failure {p : Proc} (_ : Steps .init p) {i : Nat} {r : Run} (_ : p.runs[i]? = some r) (exn : Nat → Exn) (e : Nat)
    (h : r.phase = .crashed e ∨ r.phase = .closed ∧ r.main = .raised e ∧ exn e = .base) : r.response exn = some .failed := by
  rcases h with h | ⟨h, hm, he⟩
  · simp [Run.response, h]
  · simp [Run.response, h, hm, he, response]

/-- Such a run: `poisoned`. -/
example : ∃ p r, Sequential p ∧ p.runs[0]? = some r ∧ (∃ e, r.phase = .crashed e) := ⟨_, _, poisoned, rfl, _, rfl⟩

/-- **C70, not so** A program that raises a gRPC error with the status UNAVAILABLE, also one of a service of its own, is reported as a
success. -/
theorem unavailable_is_success : response (.raised .unavailable) = response .returned := rfl

/-- **C70, not so** A program that raises `RunError("")` is reported as a success. -/
theorem empty_run_error_is_success : response (.raised (.run "")) = response .returned := rfl

/-- **C70** Programs that are not inline: the exit code is 0 exactly if the program did not raise. -/
theorem exit_code (e : Ended) : exitCode e = some 0 ↔ e = .returned := by
  rcases e with _ | x
  · simp [exitCode]
  · cases x <;> simp [exitCode]

/-- **C70, in part** Altogether: of programs that run one after the other, without failed cleanups, one with a failed RPC is reported as a
failure, if none of its exceptions is one of the two kinds. -/
theorem failed_rpc_is_reported_partial {p : Proc} (h : Sequential p) (hn : NoCrash p) {i : Nat} {r : Run} (hr : p.runs[i]? = some r)
    {k e : Nat} (hk : r.IsRpc k) (he : r.resultOf k = some (.exn e)) (exn : Nat → Exn)
    (hexn : ∀ n, exn n ≠ .unavailable ∧ exn n ≠ .run "") (x : Response) (hx : r.response exn = some x) : x.Failure := by
  have hm := failed_run_raises_partial h hn hr hk he
  have hno : ∀ e, r.phase ≠ .crashed e := hn r (List.mem_of_getElem? hr)
  unfold Run.response at hx
  split at hx
  · rename_i h2; exact absurd h2 hm
  · rename_i e' h1 h2
    cases hx
    exact (response_failure_partial _ (by simpa using (hexn e').1) (by simpa using (hexn e').2)).mpr (by simp)
  · rename_i e' h1; exact absurd h1 (hno e')
  · cases hx

/-- Such a run exists: its RPC fails and its response is there. -/
theorem failed_and_closed : ∃ p r, Sequential p ∧ NoCrash p ∧ p.runs[0]? = some r ∧ r.IsRpc 6 ∧ r.resultOf 6 = some (.exn 7) ∧
    r.response (fun _ => .other "x") = some (.response ("python inline source runtime error: " ++ "x")) := by
  have a1 : Sequential ⟨[⟨nested, .raised 7, .closing [4, 5]⟩], ⟨[(0, 2)], some 7⟩⟩ := nested_fails.finally_ 0 rfl rfl rfl
  have a2 := Sequential.step a1 (.dying (i := 0) 4 (.exn cancelled) [] none rfl rfl rfl) rfl
  have a3 := Sequential.step a2 (.dying (i := 0) 5 (.exn cancelled) [] none rfl rfl rfl) rfl
  have a4 := a3.next 0 4 rfl rfl (.inr rfl)
  have a5 := a4.next 0 5 rfl rfl (.inr rfl)
  have a6 := a5.close 0 rfl rfl
  exact ⟨_, _, a6, by simp [NoCrash], rfl, ⟨_, rfl, rfl⟩, rfl, rfl⟩

/-! ## C71: the configuration of a run -/

theorem after_configure (h : Conf.History) (c : Nat) (r : ConfigRequest) (hc : r.config ≠ []) :
    configure (Conf.after h) c r = Conf.after (.setAll c r.dict r.keys :: h) := by
  simp [configure, hc, Conf.after]

theorem meanwhile_written {c : Nat} {h h' : Conf.History} (hm : Meanwhile c h h') (k : String) :
    Conf.written h' (Conf.uses h' c) k = Conf.written h (Conf.uses h c) k := by
  induction hm with
  | nothing => rfl
  | @set h' c' k' v _ hne ih => rw [← ih]; rw [Conf.set_then_get, if_neg (fun hh => hne hh.1.symm)]
  | @setAll h' c' m ss _ hne ih => rw [← ih]; rw [Conf.setAll_isolates, if_neg (Ne.symm hne)]
  | @fork h' c1 c2 _ hne ih => rw [← ih]; rw [Conf.fork_inherits, if_neg (Ne.symm hne)]

theorem meanwhile_secrets {c : Nat} {h h' : Conf.History} (hm : Meanwhile c h h') : Conf.secretsSeen h' c = Conf.secretsSeen h c := by
  induction hm with
  | nothing => rfl
  | @set h' c' k' v _ hne ih => exact ih
  | @setAll h' c' m ss _ hne ih => cases ss <;> simp [Conf.secretsSeen, Ne.symm hne, ih]
  | @fork h' c1 c2 _ hne ih => simp [Conf.secretsSeen, Ne.symm hne, ih]

theorem lookup_str (l : List (String × String)) (k : String) :
    (l.map fun kv => (kv.1, Async.Val.str kv.2)).lookup k = (l.lookup k).map .str := by
  induction l with
  | nil => rfl
  | cons x l ih =>
    obtain ⟨a, b⟩ := x
    simp only [List.map_cons, List.lookup_cons]
    cases k == a <;> simp [ih]

theorem dict_value (r : ConfigRequest) (k : String) : Conf.Dict.value r.dict k = (r.config.reverse.lookup k).map .str := by
  rw [Conf.Dict.value, ConfigRequest.dict, ← List.map_reverse, lookup_str]

/-- **C71, in part** A run whose request has configuration reads it, and none of an earlier run: a key of the request has its value; the others
are looked up in the environment as ever. This stays so whatever happens in other contexts. -/
theorem run_config_partial (py : Conf.Py) (env : Conf.Environ) (h h' : Conf.History) (c : Nat) (r : ConfigRequest) (hc : r.config ≠ [])
    (hm : Meanwhile c (.setAll c r.dict r.keys :: h) h') (k : String) (v : Async.Val)
    (hv : Conf.Resolves py env ((r.config.reverse.lookup k).map .str) k v) :
    Conf.after (.setAll c r.dict r.keys :: h) = configure (Conf.after h) c r ∧ Conf.getConfig py env (Conf.after h') c k = .ok v := by
  refine ⟨(after_configure h c r hc).symm, Conf.getConfig_resolves py env h' c k v ?_⟩
  rw [meanwhile_written hm, Conf.setAll_isolates, if_pos rfl, dict_value]
  exact hv

/-- **C71, in part** Of a request that names secret keys, exactly those are secret. -/
theorem run_secret_keys_partial (h h' : Conf.History) (c : Nat) (r : ConfigRequest) (hc : r.config ≠ []) (hs : r.secretKeys ≠ [])
    (hm : Meanwhile c (.setAll c r.dict r.keys :: h) h') (k : String) :
    Conf.after (.setAll c r.dict r.keys :: h) = configure (Conf.after h) c r ∧
    (Conf.isConfigSecret (Conf.after h') c k = true ↔ k ∈ r.secretKeys) := by
  refine ⟨(after_configure h c r hc).symm, ?_⟩
  rw [Conf.secret_keys, meanwhile_secrets hm]
  simp [Conf.secretsSeen, ConfigRequest.keys, hs]

/-- The hypotheses are met: a run in context 5, then another program in context 6 sets its configuration and changes it. -/
example : let r : ConfigRequest := ⟨[("p:a", "1")], ["p:a"]⟩
    Meanwhile 5 (.setAll 5 r.dict r.keys :: []) (.set 6 "p:a" (.str "2") :: .setAll 6 [("p:a", .str "3")] none :: .setAll 5 r.dict r.keys :: []) ∧
    r.config.reverse.lookup "p:a" = some "1" := by
  refine ⟨.set (.setAll .nothing (by decide)) (by decide), by rfl⟩

/-- **C71** In programs that are not inline the configuration is that of the environment, whatever was there. -/
theorem exec_config (py : Conf.Py) (env : Conf.Environ) (h : Conf.History) (c : Nat) (m : Conf.Dict) (keys : List String) (k : String) (v : Async.Val)
    (hv : Conf.Dict.value m k = some v) :
    Conf.getConfig py env (configureExec (Conf.after h) c m keys) c k = .ok v ∧
    (Conf.isConfigSecret (configureExec (Conf.after h) c m keys) c k = true ↔ k ∈ keys) := by
  have he : configureExec (Conf.after h) c m keys = Conf.after (.setAll c m (some keys) :: h) := rfl
  rw [he]
  refine ⟨Conf.getConfig_resolves py env _ c k v (.explicit ?_), ?_⟩
  · rw [Conf.setAll_isolates, if_pos rfl, hv]
  · rw [Conf.secret_keys]; simp [Conf.secretsSeen]

/-- **C71, not so** A run without configuration on a thread that has already run a program reads the configuration of that program. -/
theorem empty_config_keeps_previous (py : Conf.Py) (env : Conf.Environ) (h : Conf.History) (c : Nat) (keys : List String) :
    Conf.getConfig py env (configure (configure (Conf.after h) c ⟨[("p:a", "1")], []⟩) c ⟨[], keys⟩) c "p:a" = .ok (.str "1") := by
  rw [after_configure _ _ _ (by simp)]
  have : ∀ s, configure s c ⟨[], keys⟩ = s := fun s => by simp [configure]
  rw [this]
  refine Conf.getConfig_resolves py env _ c _ _ (.explicit ?_)
  rw [Conf.setAll_isolates, if_pos rfl]
  rfl

/-- **C71, not so** A run whose request names no secret keys on such a thread treats the secret keys of the earlier run as its own. -/
theorem stale_secret_keys (h : Conf.History) (c : Nat) :
    Conf.isConfigSecret (configure (configure (Conf.after h) c ⟨[("p:a", "1")], ["p:a"]⟩) c ⟨[("p:a", "2")], []⟩) c "p:a" = true := by
  rw [after_configure _ _ _ (by simp), after_configure _ _ _ (by simp), Conf.secret_keys]
  simp [Conf.secretsSeen, ConfigRequest.keys]

/-- **C71, not so** Two programs without configuration, on new threads: a value that the one sets is read by the other. -/
theorem empty_configs_shared (py : Conf.Py) (env : Conf.Environ) (c c' : Nat) (k : String) (v : Async.Val) (keys keys' : List String) :
    Conf.getConfig py env (Conf.setConfig (configure (configure .init c ⟨[], keys⟩) c' ⟨[], keys'⟩) c k v) c' k = .ok v := by
  have : ∀ s x ks, configure s x ⟨[], ks⟩ = s := fun s x ks => by simp [configure]
  rw [this, this]
  refine Conf.getConfig_resolves py env [.set c k v] c' _ _ (.explicit ?_)
  simp [Conf.written, Conf.uses]

end Pulumi.Inline
