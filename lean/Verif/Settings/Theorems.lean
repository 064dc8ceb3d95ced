import Verif.Settings.Features
/-!
# Settings of concurrent programs (C67) and features of the monitor (C68)
-/
namespace Pulumi.Settings

/-! ## C67 -/

/-- **C67** (partial). After `Settings(...)` in a context, whatever happens in other contexts, that context reads back the
arguments. Full statement: each context reads the settings made for its program. That fails for contexts without settings of their
own, such as those of executor threads: `unset_context_sees_others`. -/
theorem settings_isolated_partial {s : State} {c : Nat} {a : Args} {e : Bool} {ops : List Op} (h : ∀ op ∈ ops, op.context ≠ c) :
    let s' := run (mkSettings s c a e) ops
    s'.get c .project = a.project ∧ s'.get c .stack = a.stack ∧ s'.get c .monitor = a.monitor ∧ s'.get c .engine = a.engine ∧
    s'.get c .parallel = a.parallel ∧ s'.get c .dryRun = a.dryRun ∧ s'.get c .organization = a.organization ∧
    s'.get c .legacyApply = (if a.legacyApply = .none then .bool e else a.legacyApply) := by
  obtain ⟨hv, _⟩ := run_vars_other (s := mkSettings s c a e) h
  obtain ⟨m1, _⟩ := mkSettings_spec s c a e
  have key : ∀ f v, a.shows e f = some v → (run (mkSettings s c a e) ops).get c f = v := by
    intro f v hf
    apply get_of_var
    rw [hv]; exact m1 f v hf
  exact ⟨key .project _ rfl, key .stack _ rfl, key .monitor _ rfl, key .engine _ rfl, key .parallel _ rfl, key .dryRun _ rfl,
    key .organization _ rfl, key .legacyApply _ rfl⟩

/-- Arguments used in examples. -/
def args (p st : String) (m : Nat) : Args :=
  { project := .str p, stack := .str st, parallel := .int 4, dryRun := .bool true, legacyApply := .none, organization := .str "org",
    monitor := .obj m, engine := .obj (m + 100) }

/-- Two programs in two threads. -/
example : ∀ op ∈ [Op.thread 2, .settings 2 (args "q" "prod" 2) false, .fork 2 3, .mock 3 9 9 (some "x") none .none], op.context ≠ 1 := by
  simp [Op.context]

/-- **C67.** A task reads the settings its creator had when it was created, whatever happens elsewhere afterwards - including in its
creator. -/
theorem task_inherits {s : State} {c c' : Nat} {f : Field} {v : Val} {ops : List Op} (hv : s.vars c f = some v)
    (h : ∀ op ∈ ops, op.context ≠ c') : (run (fork s c c') ops).get c' f = v ∧ (run (fork s c c') ops).root c' = s.root c := by
  obtain ⟨h1, h2⟩ := run_vars_other (s := fork s c c') h
  constructor
  · apply get_of_var
    rw [h1]
    simp only [fork, upd_same]; exact hv
  · rw [h2]; simp only [fork, upd_same]

example : (imported false).vars 0 .stack = some (.str "stack") ∧
    ∀ op ∈ [Op.reset 0 (args "q" "prod" 2) false, .assign 0 .stack (.str "other")], op.context ≠ 1 := by
  refine ⟨by rfl, by simp [Op.context]⟩

/-- **C67.** `reset_options` leaves the context without a root resource, and other contexts with theirs. -/
theorem reset_forgets_root {s : State} {c : Nat} {a : Args} {e : Bool} {ops : List Op} (h : ∀ op ∈ ops, op.context ≠ c) :
    (run (resetOptions s c a e) ops).root c = none ∧ ∀ c', c' ≠ c → (resetOptions s c a e).root c' = s.root c' := by
  obtain ⟨_, _, _, _, _, m6, _⟩ := mkSettings_spec { s with root := upd s.root c none } c a e
  constructor
  · rw [(run_vars_other h).2]
    exact (congrFun m6 c).trans (upd_same ..)
  · intro c' hc
    exact (congrFun m6 c').trans (upd_ne hc)

example : ∀ op ∈ [Op.setRoot 5 7], op.context ≠ 1 := by simp [Op.context]

/-- **C67**, negation: a thread that has no settings of its own reads those of a program in another context. -/
theorem unset_context_sees_others (e : Bool) : ∃ s s' : State,
    s = run (imported e) [.thread 1] ∧ s' = step s (.settings 0 (args "p" "dev" 5) e) ∧
    s.get 1 .monitor = .none ∧ s'.get 1 .monitor = .obj 5 := by
  refine ⟨_, _, rfl, rfl, ?_, ?_⟩ <;> cases e <;> rfl

/-- **C67**, negation: under `set_mocks(mocks, project, stack)` the executor thread that serves a request to the mock monitor does not
read the given project and stack, but those of the import. -/
theorem mock_names_ignored_in_threads (e : Bool) (m g : Nat) (project stack : String) (preview : Val) :
    let s := run (imported e) [.mock 0 m g (some project) (some stack) preview, .thread 1]
    s.get 0 .project = .str project ∧ s.get 0 .stack = .str stack ∧
    s.get 1 .project = .str "project" ∧ s.get 1 .stack = .str "stack" := by
  cases e <;> exact ⟨rfl, rfl, rfl, rfl⟩

/-- **C67.** Whether it is a preview: exactly if the settings of the context say so. -/
theorem dry_run_read {s : State} {c : Nat} {a : Args} {e b : Bool} {ops : List Op} (h : ∀ op ∈ ops, op.context ≠ c)
    (ha : a.dryRun = .bool b ∨ (a.dryRun = .none ∧ b = false)) : isDryRun (run (mkSettings s c a e) ops) c = b := by
  have := (settings_isolated_partial (s := s) (a := a) (e := e) h).2.2.2.2.2.1
  unfold isDryRun
  rw [this]
  rcases ha with ha | ⟨ha, rfl⟩ <;> rw [ha]

example : (args "p" "s" 1).dryRun = .bool true := rfl

/-- **C67.** The organization, or an error if there is none. -/
theorem organization_read {s : State} {c : Nat} {a : Args} {e : Bool} {ops : List Op} (h : ∀ op ∈ ops, op.context ≠ c) :
    (a.organization = .none → ∃ msg, getOrganization (run (mkSettings s c a e) ops) c = .error msg) ∧
    (a.organization ≠ .none → getOrganization (run (mkSettings s c a e) ops) c = .ok a.organization) := by
  have := (settings_isolated_partial (s := s) (a := a) (e := e) h).2.2.2.2.2.2.1
  unfold getOrganization
  rw [this]
  exact ⟨fun hn => ⟨_, by rw [if_pos hn]⟩, fun hn => by rw [if_neg hn]⟩

example : (args "p" "s" 1).organization ≠ .none := by decide

/-! ## C68 -/

/-- **C68** (partial). In every history of programs and tasks that make settings as a whole, what a context with settings is told about a
feature without asking the monitor is what *its own* monitor has answered (or "no", if it has no monitor).

Full statement: also with mocks. False: `mock_keeps_answers`. -/
theorem own_monitor_answers_partial {e : Bool} {ops : List Op} (hv : Valid (imported e) ownImported ops) {c : Nat} {f : String} {b : Bool}
    (hc : ownAfter ownImported ops c = true) (ha : (ask (run (imported e) ops) c f).2 = .done b) :
    ((run (imported e) ops).get c .monitor = .none ∧ b = false) ∨
    ∃ m, (run (imported e) ops).get c .monitor = .obj m ∧ Said ops m f b := by
  obtain ⟨owner, h⟩ := (inv_imported e).run hv
  obtain ⟨a, h1, h2, h3⟩ := h.ctx c hc
  rw [get_of_var h3]
  simp only [ask, get_of_var h2, get_of_var h3] at ha
  cases hl : look f ((run (imported e) ops).heap a) with
  | some b' =>
    rw [hl] at ha
    cases ha
    obtain ⟨m, q1, q2⟩ := h.heap a f _ h1 hl
    refine .inr ⟨m, q1, ?_⟩
    rcases q2 with q2 | ⟨op, hop, q2⟩
    · exact q2.elim
    · cases op with
      | answer c' f' m' ans =>
        obtain ⟨rfl, rfl, hr⟩ := q2
        refine ⟨c', ?_⟩
        cases ans with
        | has x => simp only [Answer.result, Except.ok.injEq] at hr; subst hr; exact .inl hop
        | unimplemented => simp only [Answer.result, Except.ok.injEq] at hr; subst hr; exact .inr ⟨hop, rfl⟩
        | unavailable => cases hr
        | error => cases hr
      | _ => exact q2.elim
  | none =>
    rw [hl] at ha
    simp only at ha
    rcases h.kind a with hk | ⟨m, hk⟩
    · rw [hk] at ha ⊢
      simp only [Asked.done.injEq] at ha
      exact .inl ⟨rfl, ha.symm⟩
    · rw [hk] at ha
      cases ha

/-- A history of two programs, each asking its own monitor. -/
def twoPrograms : List Op :=
  [.settings 0 (args "p" "dev" 5) false, .fork 0 1, .thread 2, .settings 2 (args "q" "dev" 6) false, .ask 1 "secrets", .ask 2 "secrets",
   .answer 2 "secrets" 6 .unimplemented, .answer 1 "secrets" 5 (.has true)]

/-- Non-vacuity: the history is valid, and the two contexts get their own monitors' answers. -/
example : Valid (imported false) ownImported twoPrograms ∧ ownAfter ownImported twoPrograms 0 = true ∧
    (ask (run (imported false) twoPrograms) 0 "secrets").2 = .done true ∧
    (ask (run (imported false) twoPrograms) 2 "secrets").2 = .done false := by
  refine ⟨⟨⟨.inr ⟨5, rfl⟩, ?_⟩, ?_, ?_, ⟨.inr ⟨6, rfl⟩, ?_⟩, rfl, rfl, ?_, ?_, trivial⟩, rfl, rfl, rfl⟩
  · show ∀ f m, (0, f, m) ∉ []; simp
  · show ∀ f m, (1, f, m) ∉ []; simp
  · show ∀ f m, (2, f, m) ∉ []; simp
  · show ∀ f m, (2, f, m) ∉ []; simp
  · show (2, "secrets", 6) ∈ [(2, "secrets", 6), (1, "secrets", 5)]; simp
  · show (1, "secrets", 5) ∈ [(1, "secrets", 5)]; simp

/-- **C68.** The answer is what the monitor says; a monitor that does not implement the request has no features; any other failure is
raised and not recorded. -/
theorem answer_recorded {s : State} {c : Nat} {f : String} {m a : Nat} {ans : Answer} (hf : s.get c .features = .addr a) :
    (∀ b, ans = .has b → (answer s c f m ans).2 = .ok b) ∧
    (ans = .unimplemented → (answer s c f m ans).2 = .ok false) ∧
    (∀ msg, ans = .error msg → (answer s c f m ans).2 = .error msg) ∧
    ((∀ b, ans ≠ .has b) → ans ≠ .unimplemented → (answer s c f m ans).1.heap = s.heap ∧ ∃ msg, (answer s c f m ans).2 = .error msg) := by
  have hg : ({ s with pending := s.pending.erase (c, f, m) } : State).get c .features = .addr a := hf
  refine ⟨?_, ?_, ?_, ?_⟩
  · rintro b rfl; simp only [answer, Answer.result, hg]
  · rintro rfl; simp only [answer, Answer.result, hg]
  · rintro msg rfl; simp only [answer, Answer.result]
  · intro h1 h2
    cases ans with
    | has b => exact absurd rfl (h1 b)
    | unimplemented => exact absurd rfl h2
    | unavailable => exact ⟨rfl, _, rfl⟩
    | error d => exact ⟨rfl, _, rfl⟩

example : (imported false).get 0 .features = .addr 0 := rfl

/-- **C68.** Once a monitor has answered in a context, that context is told the same without asking again; nor does it ask again whatever
happens elsewhere. -/
theorem not_asked_again {s : State} {c : Nat} {f : String} {m a : Nat} {ans : Answer} {b : Bool} {ops : List Op}
    (hf : s.get c .features = .addr a) (ha : a < s.next) (hr : (answer s c f m ans).2 = .ok b)
    (hops : ∀ op ∈ ops, op.context ≠ c) :
    (ask (answer s c f m ans).1 c f).2 = .done b ∧
    ∃ b', (ask (run (answer s c f m ans).1 ops) c f).2 = .done b' ∧ (ask (run (answer s c f m ans).1 ops) c f).1 = run (answer s c f m ans).1 ops := by
  have hg : ({ s with pending := s.pending.erase (c, f, m) } : State).get c .features = .addr a := hf
  have hres : ∃ x, ans.result = .ok x := by
    cases hx : ans.result with
    | ok x => exact ⟨x, rfl⟩
    | error msg => simp only [answer, hx] at hr; cases hr
  obtain ⟨x, hx⟩ := hres
  have hv : (answer s c f m ans).1.vars c .features = some (.addr a) := by
    simp only [answer, hx, hg]; exact set_vars_same ..
  have hl : look f ((answer s c f m ans).1.heap a) = some x := by
    simp only [answer, hx, hg, set_heap, upd_same]; exact look_store_same ..
  have hn : a < (answer s c f m ans).1.next := by
    simp only [answer, hx, hg, set_next]; exact ha
  obtain ⟨b', hb'⟩ := run_heap (ops := ops) hn hl
  have hv' : (run (answer s c f m ans).1 ops).vars c .features = some (.addr a) := by
    rw [(run_vars_other hops).1]; exact hv
  refine ⟨?_, b', ?_, ?_⟩
  · have : x = b := by simpa only [answer, hx, hg, Except.ok.injEq] using hr
    simp only [ask, get_of_var hv, hl, this]
  · simp only [ask, get_of_var hv', hb']
  · simp only [ask, get_of_var hv', hb']

example : (answer (ask (mkSettings (imported false) 0 (args "p" "s" 5) false) 0 "secrets").1 0 "secrets" 5 (.has true)).2 = .ok true := rfl

/-- **C68.** New settings start without answers: the monitor is asked. -/
theorem new_settings_ask {s : State} {c : Nat} {a : Args} {e : Bool} {f : String} {m : Nat} (hm : a.monitor = .obj m) :
    (ask (mkSettings s c a e) c f).2 = .waiting ∧ (c, f, m) ∈ (ask (mkSettings s c a e) c f).1.pending := by
  obtain ⟨m1, m2, _, m4, _⟩ := mkSettings_spec s c a e
  have h1 := get_of_var (m1 .monitor a.monitor rfl)
  simp only [ask, get_of_var m2, m4, upd_same, look, h1, hm]
  exact ⟨trivial, by simp⟩

example : (args "p" "s" 5).monitor = .obj 5 := rfl

/-- **C68**, negation: after `set_mocks` with another monitor, the answers of the previous monitor are still used; the new monitor
is not asked. -/
theorem mock_keeps_answers (e : Bool) (f : String) : ∃ ops, ops =
      [Op.mock 0 1 9 none none .none, .fork 0 1, .ask 1 f, .answer 1 f 1 (.has true), .mock 0 2 9 none none .none, .fork 0 2] ∧
    (run (imported e) ops).get 2 .monitor = .obj 2 ∧ (ask (run (imported e) ops) 2 f).2 = .done true ∧ ¬ ∃ b, Said ops 2 f b := by
  refine ⟨_, rfl, ?_, ?_, ?_⟩
  · cases e <;> rfl
  · cases e <;> simp [run, step, mockSettings, Settings.fork, Settings.ask, answer, Answer.result, imported, mkSettings, State.set, State.get, State.newFeatures,
      State.legacyFromEnv, upd, look, store]
  · rintro ⟨b, c, h | ⟨h, _⟩⟩ <;> simp at h

end Pulumi.Settings
