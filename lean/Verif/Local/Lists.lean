import Verif.Local.Lemmas
import Batteries.Data.List.Basic

/-! # Theorems on the lists that the CLI prints, and on plugins -/

namespace Pulumi.Local

open Pulumi.Cli (Text Arg lit)

/-! ## Lemmas -/

theorem configValue_shown (showSecrets : Bool) (v : Text × Bool)
    (h : showSecrets = true ∨ v.2 = false) :
    configValue (configJson showSecrets v) = .ok ⟨.str v.1, .bool v.2⟩ := by
  obtain ⟨t, b⟩ := v
  rcases h with rfl | h
  · cases b <;> rfl
  · simp only at h
    subst h
    rfl

theorem configValue_hidden (t : Text) :
    configValue (configJson false (t, true)) = .error .keyError := rfl

theorem configValues_shown (showSecrets : Bool) (c : List (Text × Text × Bool))
    (h : showSecrets = true ∨ ∀ e ∈ c, e.2.2 = false) :
    configValues (c.map fun e => (e.1, configJson showSecrets e.2))
      = .ok (c.map fun e => (e.1, ⟨.str e.2.1, .bool e.2.2⟩)) := by
  induction c with
  | nil => rfl
  | cons e r ih =>
    simp only [List.map_cons, configValues]
    rw [configValue_shown showSecrets e.2 (h.imp_right (fun h => h e (by simp)))]
    simp only
    rw [ih (h.imp_right (fun h x hx => h x (by simp [hx])))]
    rfl

theorem configValues_hidden (c : List (Text × Text × Bool)) (e : Text × Text × Bool) (he : e ∈ c)
    (hs : e.2.2 = true) :
    configValues (c.map fun e => (e.1, configJson false e.2)) = .error .keyError := by
  induction c with
  | nil => simp at he
  | cons a r ih =>
    simp only [List.map_cons, configValues]
    obtain ⟨k, t, b⟩ := a
    cases b with
    | true => rw [configValue_hidden]
    | false =>
      rw [configValue_shown false (t, false) (Or.inr rfl)]
      simp only
      have : e ∈ r := by
        rcases List.mem_cons.1 he with h | h
        · rw [h] at hs; exact absurd hs (by simp)
        · exact h
      rw [ih this]
      rfl

theorem summary_ok {T : Type} (time : Text → Option T) (format : T → Text)
    (hT : ∀ t, time (format t) = some t) (showSecrets : Bool) (u : Update T)
    (hf : u.finished.isSome = true) (hs : showSecrets = true ∨ ∀ e ∈ u.config, e.2.2 = false) :
    ∃ s, summary time (updateJson format showSecrets u) = .ok s ∧ SummaryOf u s := by
  obtain ⟨version, kind, start, message, environment, config, result, finished⟩ := u
  cases finished with
  | none => simp at hf
  | some x =>
    obtain ⟨t, ch⟩ := x
    have hc := configValues_shown showSecrets config hs
    refine ⟨⟨.str kind, start, .str message, .dict (environment.map fun e => (e.1, .str e.2)),
      config.map fun e => (e.1, ⟨.str e.2.1, .bool e.2.2⟩), .str result, t, .int version,
      .dict (ch.map fun e => (e.1, .int e.2))⟩, ?_, rfl, rfl, rfl, rfl, rfl, rfl, rfl, ch, rfl, rfl⟩
    have h1 : strptime time (.str (format start)) = .ok start := by simp only [strptime, hT]
    have h2 : strptime time (.str (format t)) = .ok t := by simp only [strptime, hT]
    show (strptime time (.str (format start))).bind _ = _
    rw [h1]
    show (strptime time (.str (format t))).bind _ = _
    rw [h2]
    show (configValues (config.map fun e => (e.1, configJson showSecrets e.2))).bind _ = _
    rw [hc]
    rfl

theorem summary_running {T : Type} (time : Text → Option T) (format : T → Text)
    (hT : ∀ t, time (format t) = some t) (showSecrets : Bool) (u : Update T)
    (hf : u.finished = none) :
    summary time (updateJson format showSecrets u) = .error .keyError := by
  obtain ⟨version, kind, start, message, environment, config, result, finished⟩ := u
  simp only at hf
  subst hf
  have h1 : strptime time (.str (format start)) = .ok start := by simp only [strptime, hT]
  show (do
    let startTime ← strptime time (.str (format start))
    (.error .keyError : Except Err (Summary T))) = _
  rw [h1]
  rfl

theorem summary_hidden {T : Type} (time : Text → Option T) (format : T → Text)
    (hT : ∀ t, time (format t) = some t) (u : Update T) (e : Text × Text × Bool)
    (he : e ∈ u.config) (hs : e.2.2 = true) :
    summary time (updateJson format false u) = .error .keyError := by
  cases hf : u.finished with
  | none => exact summary_running time format hT false u hf
  | some x =>
    obtain ⟨version, kind, start, message, environment, config, result, finished⟩ := u
    obtain ⟨t, ch⟩ := x
    simp only at hf he
    subst hf
    have hc := configValues_hidden config e he hs
    have h1 : strptime time (.str (format start)) = .ok start := by simp only [strptime, hT]
    have h2 : strptime time (.str (format t)) = .ok t := by simp only [strptime, hT]
    show (strptime time (.str (format start))).bind _ = _
    rw [h1]
    show (strptime time (.str (format t))).bind _ = _
    rw [h2]
    show (configValues (config.map fun e => (e.1, configJson false e.2))).bind _ = _
    rw [hc]
    rfl

/-! ## C96: the entries of a history -/

/-- C96 (partial): every finished update is read, with the values that the CLI
printed, if secrets are shown or there are none.  Missing: running updates, and
hidden secrets. -/
theorem history_entries_partial {T : Type} (time : Text → Option T) (format : T → Text)
    (hT : ∀ t, time (format t) = some t) (showSecrets : Bool) (us : List (Update T))
    (hf : ∀ u ∈ us, u.finished.isSome = true)
    (hs : showSecrets = true ∨ ∀ u ∈ us, ∀ e ∈ u.config, e.2.2 = false) :
    ∃ ss, summaries time (us.map (updateJson format showSecrets)) = .ok ss
      ∧ List.Forall₂ SummaryOf us ss := by
  induction us with
  | nil => exact ⟨[], rfl, .nil⟩
  | cons u r ih =>
    obtain ⟨s, h1, h2⟩ := summary_ok time format hT showSecrets u (hf u (by simp))
      (hs.imp_right (fun h => h u (by simp)))
    obtain ⟨ss, h3, h4⟩ := ih (fun x hx => hf x (by simp [hx]))
      (hs.imp_right (fun h x hx => h x (by simp [hx])))
    refine ⟨s :: ss, ?_, .cons h2 h4⟩
    simp only [List.map_cons, summaries, h1, h3, Except.map]

/-- The reading of any list of updates ends in `KeyError` if that of one of them
does. -/
theorem summaries_error {T : Type} (time : Text → Option T) (format : T → Text)
    (hT : ∀ t, time (format t) = some t) (showSecrets : Bool) (us : List (Update T))
    (u : Update T) (hu : u ∈ us)
    (he : summary time (updateJson format showSecrets u) = .error .keyError) :
    summaries time (us.map (updateJson format showSecrets)) = .error .keyError := by
  induction us with
  | nil => simp at hu
  | cons x r ih =>
    simp only [List.map_cons, summaries]
    rcases List.mem_cons.1 hu with rfl | hu
    · rw [he]
    · have hx : summary time (updateJson format showSecrets x) = .error .keyError
          ∨ ∃ s, summary time (updateJson format showSecrets x) = .ok s := by
        cases hf : x.finished with
        | none => exact Or.inl (summary_running time format hT showSecrets x hf)
        | some y =>
          cases showSecrets with
          | true =>
            obtain ⟨s, hs, -⟩ := summary_ok time format hT true x (by rw [hf]; rfl) (Or.inl rfl)
            exact Or.inr ⟨s, hs⟩
          | false =>
            by_cases hsec : ∀ e ∈ x.config, e.2.2 = false
            · obtain ⟨s, hs, -⟩ := summary_ok time format hT false x (by rw [hf]; rfl) (Or.inr hsec)
              exact Or.inr ⟨s, hs⟩
            · obtain ⟨e, he'⟩ := Classical.not_forall.1 hsec
              obtain ⟨hm, hne⟩ := Classical.not_imp.1 he'
              exact Or.inl (summary_hidden time format hT x e hm (by simpa using hne))
      rcases hx with hx | ⟨s, hx⟩
      · rw [hx]
      · rw [hx]
        simp only
        rw [ih hu]
        rfl

/-- C96 fails: while an update runs, reading a history with it raises `KeyError`. -/
theorem history_running_raises {T : Type} (time : Text → Option T) (format : T → Text)
    (hT : ∀ t, time (format t) = some t) (showSecrets : Bool) (us : List (Update T))
    (u : Update T) (hu : u ∈ us) (hf : u.finished = none) :
    summaries time (us.map (updateJson format showSecrets)) = .error .keyError :=
  summaries_error time format hT showSecrets us u hu
    (summary_running time format hT showSecrets u hf)

/-- C96 fails: with `show_secrets=False`, reading a history with an update that had a
secret in its config raises `KeyError`; so do `up`, `refresh` and `destroy`, after
their work was done. -/
theorem history_hidden_raises {T : Type} (time : Text → Option T) (format : T → Text)
    (hT : ∀ t, time (format t) = some t) (us : List (Update T)) (u : Update T) (hu : u ∈ us)
    (e : Text × Text × Bool) (he : e ∈ u.config) (hs : e.2.2 = true) :
    summaries time (us.map (updateJson format false)) = .error .keyError :=
  summaries_error time format hT false us u hu (summary_hidden time format hT u e he hs)

/-- A finished update with a secret and a plain value. -/
def sampleUpdate : Update Text :=
  { version := 3, kind := "update".toList, start := "t0".toList, message := [],
    environment := [("git.head".toList, "abc".toList)],
    config := [("app:token".toList, "hunter2".toList, true), ("app:n".toList, "1".toList, false)],
    result := "succeeded".toList, finished := some ("t1".toList, [("create".toList, 2)]) }

example : (∀ t : Text, (some : Text → Option Text) (id t) = some t)
    ∧ sampleUpdate.finished.isSome = true
    ∧ ∃ e ∈ sampleUpdate.config, e.2.2 = true :=
  ⟨fun _ => rfl, rfl, _, List.mem_cons_self .., rfl⟩

/-- C96: `get_all_config`, which always shows secrets, reads every value. -/
theorem all_config_read (c : List (Text × Text × Bool)) :
    configOf (.dict (c.map fun e => (e.1, configJson true e.2)))
      = .ok (c.map fun e => (e.1, ⟨.str e.2.1, .bool e.2.2⟩)) :=
  configValues_shown true c (Or.inl rfl)

/-! ## C97: lists of stacks and plugins -/

theorem stackSummary_ok {T : Type} (time : Text → Option T) (format : T → Text)
    (hT : ∀ t, time (format t) = some t) (i : StackInfo T) :
    stackSummary time (stackJson format i) = .ok (stackSummaryOf i) := by
  obtain ⟨name, current, inProgress, lastUpdate, resources, url⟩ := i
  cases lastUpdate with
  | none =>
    cases resources <;> cases url <;> rfl
  | some t =>
    have h1 : strptime time (.str (format t)) = .ok t := by simp only [strptime, hT]
    cases resources <;> cases url <;>
    · show ((strptime time (.str (format t))).map some).bind _ = _
      rw [h1]
      rfl

/-- C97: `list_stacks` reads every stack as the CLI printed it. -/
theorem list_stacks_read {T : Type} (time : Text → Option T) (format : T → Text)
    (hT : ∀ t, time (format t) = some t) (l : List (StackInfo T)) :
    stackSummaries time (l.map (stackJson format)) = .ok (l.map stackSummaryOf) := by
  induction l with
  | nil => rfl
  | cons i r ih =>
    simp only [List.map_cons, stackSummaries, stackSummary_ok time format hT i, ih, Except.map]

/-- C97: `stack` returns the stack that is the current one, and nothing if none is. -/
theorem current_stack_read {T : Type} (time : Text → Option T) (format : T → Text)
    (hT : ∀ t, time (format t) = some t) (a b : List (StackInfo T)) (i : StackInfo T)
    (hi : i.current = true) (ha : ∀ x ∈ a, x.current = false) :
    currentStack time ((a ++ i :: b).map (stackJson format)) = .ok (some (stackSummaryOf i))
    ∧ currentStack time (a.map (stackJson format)) = .ok none := by
  have hn : ∀ l : List (StackInfo T), (∀ x ∈ l, x.current = false) →
      (l.map stackSummaryOf).find? (fun s => truthy s.current) = none := by
    intro l hl
    simp only [List.find?_eq_none, List.mem_map]
    rintro s ⟨x, hx, rfl⟩
    simp [stackSummaryOf, truthy, hl x hx]
  constructor
  · unfold currentStack
    rw [list_stacks_read time format hT]
    simp only [Except.map, List.map_append, List.map_cons, List.find?_append, hn a ha,
      Option.none_or]
    rw [List.find?_cons_of_pos (by simp [stackSummaryOf, truthy, hi])]
  · unfold currentStack
    rw [list_stacks_read time format hT]
    simp only [Except.map, hn a ha]

example : (⟨"dev".toList, true, false, some "t".toList, some 3, []⟩ : StackInfo Text).current = true :=
  rfl

theorem pluginInfo_ok {T : Type} (time : Text → Option T) (format : T → Text)
    (hT : ∀ t, time (format t) = some t) (p : Plugin T) (h : p.lastUsed.isSome = true) :
    ∃ i, pluginInfo time (pluginJson format p) = .ok i ∧ PluginInfoOf p i := by
  obtain ⟨name, kind, version, size, installed, lastUsed⟩ := p
  cases lastUsed with
  | none => simp at h
  | some t =>
    have h1 : strptime time (.str (format t)) = .ok t := by simp only [strptime, hT]
    refine ⟨⟨.str name, .str kind, .int size, t, installed, .str version⟩, ?_,
      rfl, rfl, rfl, rfl, rfl, rfl⟩
    cases installed with
    | none =>
      show (strptime time (.str (format t))).bind _ = _
      rw [h1]
      rfl
    | some t' =>
      have h2 : strptime time (.str (format t')) = .ok t' := by simp only [strptime, hT]
      show (strptime time (.str (format t))).bind _ = _
      rw [h1]
      show ((strptime time (.str (format t'))).map some).bind _ = _
      rw [h2]
      rfl

theorem pluginInfo_unused {T : Type} (time : Text → Option T) (format : T → Text) (p : Plugin T)
    (h : p.lastUsed = none) : pluginInfo time (pluginJson format p) = .error .keyError := by
  obtain ⟨name, kind, version, size, installed, lastUsed⟩ := p
  simp only at h
  subst h
  cases installed <;> rfl

/-- C97 (partial): `list_plugins` reads every plugin as the CLI printed it, if all of
them have been used. -/
theorem list_plugins_partial {T : Type} (time : Text → Option T) (format : T → Text)
    (hT : ∀ t, time (format t) = some t) (l : List (Plugin T))
    (h : ∀ p ∈ l, p.lastUsed.isSome = true) :
    ∃ is, pluginInfos time (l.map (pluginJson format)) = .ok is ∧ List.Forall₂ PluginInfoOf l is := by
  induction l with
  | nil => exact ⟨[], rfl, .nil⟩
  | cons p r ih =>
    obtain ⟨i, h1, h2⟩ := pluginInfo_ok time format hT p (h p (by simp))
    obtain ⟨is, h3, h4⟩ := ih (fun x hx => h x (by simp [hx]))
    exact ⟨i :: is, by simp only [List.map_cons, pluginInfos, h1, h3, Except.map], .cons h2 h4⟩

/-- C97 fails: one plugin that has not been used makes `list_plugins` raise. -/
theorem unused_plugin_raises {T : Type} (time : Text → Option T) (format : T → Text)
    (hT : ∀ t, time (format t) = some t) (l : List (Plugin T)) (p : Plugin T) (hp : p ∈ l)
    (h : p.lastUsed = none) : pluginInfos time (l.map (pluginJson format)) = .error .keyError := by
  induction l with
  | nil => simp at hp
  | cons x r ih =>
    simp only [List.map_cons, pluginInfos]
    cases hx : x.lastUsed with
    | none => rw [pluginInfo_unused time format x hx]
    | some t =>
      obtain ⟨i, h1, -⟩ := pluginInfo_ok time format hT x (by rw [hx]; rfl)
      rw [h1]
      simp only
      have : p ∈ r := by
        rcases List.mem_cons.1 hp with rfl | hp
        · rw [h] at hx; cases hx
        · exact hp
      rw [ih this]
      rfl

example : (⟨"aws".toList, "resource".toList, "5.0.0".toList, 9, some "t".toList, none⟩
    : Plugin Text).lastUsed = none := rfl

/-! ## C98: commands on plugins -/

/-- The arguments that follow the kind. -/
def given (name version : Option Text) : List Text := name.toList ++ version.toList

theorem appendIf_texts (t : Option Text) (h : t ≠ some []) :
    Cli.texts (appendIf t) = some t.toList := by
  match t, h with
  | none, _ => rfl
  | some (c :: r), _ => rfl

theorem remove_parse (kind : Text) (name version : Option Text) (hk : Cli.Plain kind)
    (hn : ∀ n, name = some n → Cli.Plain n ∧ n ≠ [])
    (hv : ∀ v, version = some v → Cli.Plain v ∧ v ≠ []) :
    ∃ argv p, Cli.launch (removePluginArgs kind name version) = some argv
      ∧ argv.take 2 = ["plugin".toList, "rm".toList]
      ∧ Cli.cliParse pluginKind (argv.drop 2) = some p
      ∧ p.values "yes".toList = ["true".toList] ∧ p.values "all".toList = []
      ∧ p.args = kind :: given name version := by
  have h1 := appendIf_texts name (fun h => (hn [] h).2 rfl)
  have h2 := appendIf_texts version (fun h => (hv [] h).2 rfl)
  have ht : Cli.texts (removePluginArgs kind name version)
      = some (["plugin".toList, "rm".toList, kind] ++ name.toList ++ version.toList
        ++ ["--yes".toList]) :=
    Cli.texts_append _ _ _ _ (Cli.texts_append _ _ _ _ (Cli.texts_append _ _ _ _ rfl h1) h2) rfl
  obtain ⟨tail, fs, hs, hl⟩ := Cli.launch_suffix _ _ ht
  refine ⟨_, ⟨("yes".toList, "true".toList) :: fs, kind :: given name version⟩, hl, rfl, ?_, ?_, ?_,
    rfl⟩
  · have e : (["plugin".toList, "rm".toList, kind] ++ name.toList ++ version.toList
        ++ ["--yes".toList] ++ tail).drop 2
        = (kind :: given name version) ++ ("--yes".toList :: tail) := by
      simp [given]
    rw [e, Cli.parse_args pluginKind (kind :: given name version) ?_,
      Cli.parse_switch pluginKind "--yes".toList "yes".toList _ rfl (by decide) (by decide),
      Cli.parse_suffix pluginKind tail fs hs (by decide)]
    · simp [Cli.Parsed.addFlag]
    · intro a ha
      simp only [given, List.mem_cons, List.mem_append, Option.mem_toList] at ha
      rcases ha with rfl | ha | ha
      · exact hk
      · exact (hn a ha).1
      · exact (hv a ha).1
  · unfold Cli.Parsed.values
    rw [Cli.filter_hit, Cli.suffix_values tail fs hs _ (by decide)]
    rfl
  · unfold Cli.Parsed.values
    rw [Cli.filter_miss _ _ _ _ (by decide), Cli.suffix_values tail fs hs _ (by decide)]
    rfl

/-- C98 (partial): removing plugins removes exactly those of the kind, name and
version range given, without questions.  Missing: a version range without a name,
and texts that are empty or look like flags. -/
theorem remove_plugin_partial (within : Text → Text → Bool) (kind : Text)
    (name version : Option Text) (hk : Cli.Plain kind)
    (hn : ∀ n, name = some n → Cli.Plain n ∧ n ≠ [])
    (hv : ∀ v, version = some v → Cli.Plain v ∧ v ≠ [])
    (hnv : version ≠ none → name ≠ none) :
    ∃ argv p, Cli.launch (removePluginArgs kind name version) = some argv
      ∧ argv.take 2 = ["plugin".toList, "rm".toList]
      ∧ Cli.cliParse pluginKind (argv.drop 2) = some p
      ∧ p.values "yes".toList = ["true".toList] ∧ p.values "all".toList = []
      ∧ ∀ pl, rmRemoves within p.args pl = true ↔ AskedToRemove within kind name version pl := by
  obtain ⟨argv, p, h1, h2, h3, h4, h5, h6⟩ := remove_parse kind name version hk hn hv
  refine ⟨argv, p, h1, h2, h3, h4, h5, ?_⟩
  rintro ⟨k, n, v⟩
  rw [h6]
  match name, version with
  | none, none => simp [given, rmRemoves, AskedToRemove]
  | none, some r => exact absurd rfl (hnv (by simp))
  | some m, none =>
    simp [given, rmRemoves, AskedToRemove, (hn m rfl).2]
  | some m, some r =>
    simp [given, rmRemoves, AskedToRemove, (hn m rfl).2, and_assoc]

/-- C98 fails: a version range without a name is taken for a name: the plugins
removed are those named like the range, which are none. -/
theorem version_taken_for_name (within : Text → Text → Bool) (kind version : Text)
    (hk : Cli.Plain kind) (hv : Cli.Plain version) (hne : version ≠ []) :
    ∃ argv p, Cli.launch (removePluginArgs kind none (some version)) = some argv
      ∧ Cli.cliParse pluginKind (argv.drop 2) = some p
      ∧ ∀ pl, rmRemoves within p.args pl = true ↔ pl.1 = kind ∧ pl.2.1 = version := by
  obtain ⟨argv, p, h1, -, h3, -, -, h6⟩ := remove_parse kind none (some version) hk
    (fun _ h => by cases h) (fun v h => by cases h; exact ⟨hv, hne⟩)
  refine ⟨argv, p, h1, h3, ?_⟩
  rintro ⟨k, n, v⟩
  rw [h6]
  simp [given, rmRemoves, hne]

/-- C98: installing a plugin installs the version given. -/
theorem install_plugin_partial (kind name version : Text) (hk : Cli.Plain kind)
    (hn : Cli.Plain name) (hv : Cli.Plain version) :
    ∃ argv p, Cli.launch (installPluginArgs kind name version) = some argv
      ∧ argv.take 2 = ["plugin".toList, "install".toList]
      ∧ Cli.cliParse pluginKind (argv.drop 2) = some p ∧ p.args = [kind, name, version]
      ∧ p.values "reinstall".toList = [] := by
  obtain ⟨tail, fs, hs, hl⟩ := Cli.launch_suffix (installPluginArgs kind name version)
    ["plugin".toList, "install".toList, kind, name, version] rfl
  refine ⟨_, ⟨fs, [kind, name, version]⟩, hl, rfl, ?_, rfl, ?_⟩
  · show Cli.cliParse pluginKind ([kind, name, version] ++ tail) = _
    rw [Cli.parse_args pluginKind [kind, name, version] ?_,
      Cli.parse_suffix pluginKind tail fs hs (by decide)]
    · simp
    · intro a ha
      simp only [List.mem_cons, List.not_mem_nil, or_false] at ha
      rcases ha with rfl | rfl | rfl
      · exact hk
      · exact hn
      · exact hv
  · unfold Cli.Parsed.values
    rw [Cli.suffix_values tail fs hs _ (by decide)]
    rfl

example : Cli.Plain "resource".toList ∧ Cli.Plain "aws".toList ∧ Cli.Plain ">=1.0.0".toList :=
  ⟨rfl, rfl, rfl⟩

end Pulumi.Local
