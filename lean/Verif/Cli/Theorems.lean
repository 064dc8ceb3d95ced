import Verif.Cli.Args

/-! # Theorems on the arguments of commands -/

namespace Pulumi.Cli

/-! ## C80: an operation runs with the options asked for -/

/-- C80 (partial): for every operation and every set of options, the process starts
and the CLI reads exactly the flags asked for, each with its value, whatever text
the values are.  Missing: `parallel=0`, an empty colour, a log verbosity and a value
that is the text `--non-interactive`. -/
theorem operation_reads_partial (op : Op) (o : Opts) (c : Call) (hp : o.parallel ≠ some 0)
    (hc : o.color ≠ some []) (hv : o.logVerbosity = none ∨ o.logVerbosity = some 0)
    (hn : "--non-interactive".toList ∉ optionTexts o c) :
    ∃ argv, launch (opArgs op o c) = some argv ∧ ReadsAsAsked op o c argv :=
  operation_reads op o c hp hc hv hn

/-- Options with texts that look like flags. -/
def sampleOpts : Opts :=
  { parallel := some 4, message := some "--yes".toList,
    target := some ["urn:a".toList, "--help".toList], diff := some true, plan := some [] }

def sampleCall : Call :=
  { stack := "org/dev".toList, port := some "4242".toList, eventLog := some "/tmp/l".toList }

example : sampleOpts.parallel ≠ some 0 ∧ sampleOpts.color ≠ some []
    ∧ sampleOpts.logVerbosity = none ∧ "--non-interactive".toList ∉ optionTexts sampleOpts sampleCall := by
  decide

example : askedFor (asked .up sampleOpts sampleCall) "target".toList
      = ["urn:a".toList, "--help".toList]
    ∧ askedFor (asked .up sampleOpts sampleCall) "help".toList = []
    ∧ askedFor (asked .up sampleOpts sampleCall) "client".toList = ["127.0.0.1:4242".toList]
    ∧ askedFor (asked .up sampleOpts sampleCall) "plan".toList = [[]] := by
  decide

/-- C80 fails: any log verbosity other than 0 makes every operation raise before
the CLI is started. -/
theorem verbosity_raises (op : Op) (o : Opts) (c : Call) (n : Int) (hn : n ≠ 0)
    (hv : o.logVerbosity = some n) : launch (opArgs op o c) = none :=
  verbose_none op o c n hn hv

example : (3 : Int) ≠ 0 ∧ ({ logVerbosity := some 3 } : Opts).logVerbosity = some 3 := by decide

/-- C80 fails: `parallel=0` is not passed on, so the CLI runs with its default,
which is no limit. -/
theorem parallel_zero_lost :
    ∃ argv, launch (opArgs .up { parallel := some 0 } { stack := "dev".toList }) = some argv
      ∧ ¬ ReadsAsAsked .up { parallel := some 0 } { stack := "dev".toList } argv := by
  refine ⟨["up".toList, "--yes".toList, "--skip-preview".toList, "--exec-kind".toList,
    "auto.local".toList, "--stack".toList, "dev".toList, "--non-interactive".toList], by decide, ?_⟩
  rintro ⟨rest, p, h1, h2, -, h4⟩
  have hr : rest = ["--yes".toList, "--skip-preview".toList, "--exec-kind".toList,
    "auto.local".toList, "--stack".toList, "dev".toList, "--non-interactive".toList] :=
    (List.cons.inj h1).2.symm
  have hp : cliParse opKind ["--yes".toList, "--skip-preview".toList, "--exec-kind".toList,
      "auto.local".toList, "--stack".toList, "dev".toList, "--non-interactive".toList]
      = some ⟨[("yes".toList, "true".toList), ("skip-preview".toList, "true".toList),
        ("exec-kind".toList, "auto.local".toList), ("stack".toList, "dev".toList),
        ("non-interactive".toList, "true".toList)], []⟩ := by decide
  rw [hr, hp] at h2
  have h5 := h4 "parallel".toList
  rw [← Option.some.inj h2] at h5
  revert h5
  decide

/-- C80 fails: an operation whose message is the text `--non-interactive` runs
without that flag, and may ask questions. -/
theorem message_makes_interactive :
    ∃ argv rest p, launch (opArgs .refresh { message := some "--non-interactive".toList }
        { stack := "dev".toList }) = some argv
      ∧ argv = "refresh".toList :: rest ∧ cliParse opKind rest = some p
      ∧ p.values "message".toList = ["--non-interactive".toList]
      ∧ p.values "non-interactive".toList = [] :=
  ⟨["refresh".toList, "--yes".toList, "--skip-preview".toList, "--message".toList,
      "--non-interactive".toList, "--exec-kind".toList, "auto.local".toList, "--stack".toList,
      "dev".toList], _, ⟨[("yes".toList, "true".toList), ("skip-preview".toList, "true".toList),
        ("message".toList, "--non-interactive".toList), ("exec-kind".toList, "auto.local".toList),
        ("stack".toList, "dev".toList)], []⟩,
    by decide, rfl, by decide, by decide, by decide⟩

/-- C80 (partial): the policy packs that the CLI reads are those asked for, when no
path is empty or has a comma in it. -/
theorem policy_packs_partial (op : Op) (o : Opts) (c : Call) (argv rest : List Text) (p : Parsed)
    (h : ReadsAsAsked op o c argv) (ha : argv.tail = rest) (hp : cliParse opKind rest = some p)
    (hk : ∀ t ∈ o.policyPacks.getD [], t ≠ [] ∧ ',' ∉ t)
    (hg : ∀ t ∈ o.policyPackConfigs.getD [], t ≠ [] ∧ ',' ∉ t) :
    p.slice "policy-pack".toList = o.policyPacks.getD []
    ∧ p.slice "policy-pack-config".toList = o.policyPackConfigs.getD [] := by
  obtain ⟨rest', p', h1, h2, -, h4⟩ := h
  have hr : rest' = rest := by rw [← ha, h1]; rfl
  rw [hr, hp] at h2
  have hpp : p = p' := Option.some.inj h2
  subst hpp
  have e1 : askedFor (asked op o c) "policy-pack".toList = o.policyPacks.getD [] := by
    cases op <;> rfl
  have e2 : askedFor (asked op o c) "policy-pack-config".toList
      = o.policyPackConfigs.getD [] := by
    cases op <;> rfl
  unfold Parsed.slice
  rw [h4, h4, e1, e2]
  exact ⟨slice_plain _ hk, slice_plain _ hg⟩

/-- A path with a comma is read as two policy packs. -/
theorem comma_splits :
    ∃ argv p, launch (opArgs .up { policyPacks := some ["a,b".toList] }
        { stack := "dev".toList }) = some argv
      ∧ cliParse opKind argv.tail = some p
      ∧ p.slice "policy-pack".toList = ["a".toList, "b".toList] :=
  ⟨["up".toList, "--yes".toList, "--skip-preview".toList, "--policy-pack".toList, "a,b".toList,
      "--exec-kind".toList, "auto.local".toList, "--stack".toList, "dev".toList,
      "--non-interactive".toList],
    ⟨[("yes".toList, "true".toList), ("skip-preview".toList, "true".toList),
      ("policy-pack".toList, "a,b".toList), ("exec-kind".toList, "auto.local".toList),
      ("stack".toList, "dev".toList), ("non-interactive".toList, "true".toList)], []⟩,
    by decide, by decide, by decide⟩

/-! ## C81: a command on config acts on the keys and values given -/

/-- C81 (partial): reading a key that does not look like a flag. -/
theorem get_config_partial (stack key : Text) (hk : Plain key) :
    ∃ argv, launch (getConfigArgs stack key) = some argv
      ∧ configEffect argv = some (.get stack key) := by
  by_cases hm : lit "--non-interactive" ∈ getConfigArgs stack key
  · refine ⟨["config".toList, "get".toList, key, "--json".toList, "--stack".toList, stack], ?_, ?_⟩
    · unfold launch nonInteractive
      rw [if_pos hm]
      rfl
    · show (cliParse configKind [key, "--json".toList, "--stack".toList, stack]).bind readGet = _
      rw [parse_arg configKind key _ hk,
        parse_switch configKind "--json".toList "json".toList _ rfl (by decide) (by decide),
        parse_value configKind "--stack".toList "stack".toList stack _ rfl (by decide) (by decide)]
      rfl
  · refine ⟨["config".toList, "get".toList, key, "--json".toList, "--stack".toList, stack,
      "--non-interactive".toList], ?_, ?_⟩
    · unfold launch nonInteractive
      rw [if_neg hm]
      rfl
    · show (cliParse configKind [key, "--json".toList, "--stack".toList, stack,
        "--non-interactive".toList]).bind readGet = _
      rw [parse_arg configKind key _ hk,
        parse_switch configKind "--json".toList "json".toList _ rfl (by decide) (by decide),
        parse_value configKind "--stack".toList "stack".toList stack _ rfl (by decide) (by decide),
        parse_switch configKind "--non-interactive".toList "non-interactive".toList _ rfl
          (by decide) (by decide)]
      rfl

/-- C81 (partial): setting a key that does not look like a flag sets it to exactly
the value given, whatever it is, and as a secret exactly when asked. -/
theorem set_config_partial (stack key : Text) (v : ConfigValue) (hk : Plain key) :
    ∃ argv, launch (setConfigArgs stack key v) = some argv
      ∧ configEffect argv = some (.set stack key v.value v.secret) := by
  have hm : lit "--non-interactive" ∈ setConfigArgs stack key v := by simp [setConfigArgs]
  obtain ⟨value, secret⟩ := v
  cases secret
  · refine ⟨["config".toList, "set".toList, key, "--plaintext".toList, "--stack".toList, stack,
      "--non-interactive".toList, "--".toList, value], ?_, ?_⟩
    · unfold launch nonInteractive
      rw [if_pos hm]
      rfl
    · show (cliParse setKind [key, "--plaintext".toList, "--stack".toList, stack,
        "--non-interactive".toList, "--".toList, value]).bind readSet = _
      rw [parse_arg setKind key _ hk,
        parse_switch setKind "--plaintext".toList "plaintext".toList _ rfl (by decide) (by decide),
        parse_value setKind "--stack".toList "stack".toList stack _ rfl (by decide) (by decide),
        parse_switch setKind "--non-interactive".toList "non-interactive".toList _ rfl
          (by decide) (by decide), parse_end]
      rfl
  · refine ⟨["config".toList, "set".toList, key, "--secret".toList, "--stack".toList, stack,
      "--non-interactive".toList, "--".toList, value], ?_, ?_⟩
    · unfold launch nonInteractive
      rw [if_pos hm]
      rfl
    · show (cliParse setKind [key, "--secret".toList, "--stack".toList, stack,
        "--non-interactive".toList, "--".toList, value]).bind readSet = _
      rw [parse_arg setKind key _ hk,
        parse_switch setKind "--secret".toList "secret".toList _ rfl (by decide) (by decide),
        parse_value setKind "--stack".toList "stack".toList stack _ rfl (by decide) (by decide),
        parse_switch setKind "--non-interactive".toList "non-interactive".toList _ rfl
          (by decide) (by decide), parse_end]
      rfl

/-- C81 (partial): removing keys that do not look like flags removes exactly them. -/
theorem remove_config_partial (stack key : Text) (hk : Plain key) :
    ∃ argv, launch (removeConfigArgs stack key) = some argv
      ∧ configEffect argv = some (.remove stack [key]) := by
  obtain ⟨tail, fs, hs, hl⟩ := launch_suffix (removeConfigArgs stack key)
    ["config".toList, "rm".toList, key, "--stack".toList, stack] rfl
  refine ⟨_, hl, ?_⟩
  show (cliParse configKind (key :: "--stack".toList :: stack :: tail)).bind (readRemove false) = _
  rw [parse_arg configKind key _ hk,
    parse_value configKind "--stack".toList "stack".toList stack _ rfl (by decide) (by decide),
    parse_suffix configKind tail fs hs (by decide)]
  rcases hs with ⟨rfl, rfl⟩ | ⟨rfl, rfl⟩
  · rfl
  · rfl

/-- C81 (partial): the same for several keys; at least one. -/
theorem remove_all_config_partial (stack : Text) (keys : List Text) (hk : ∀ k ∈ keys, Plain k)
    (hne : keys ≠ []) :
    ∃ argv, launch (removeAllConfigArgs stack keys) = some argv
      ∧ configEffect argv = some (.remove stack keys) := by
  obtain ⟨tail, fs, hs, hl⟩ := launch_suffix (removeAllConfigArgs stack keys)
    (["config".toList, "rm-all".toList, "--stack".toList, stack] ++ keys)
    (texts_append _ _ _ _ rfl (texts_map keys))
  refine ⟨_, hl, ?_⟩
  show (cliParse configKind ("--stack".toList :: stack :: (keys ++ tail))).bind (readRemove true)
    = _
  rw [parse_value configKind "--stack".toList "stack".toList stack _ rfl (by decide) (by decide),
    parse_args configKind keys hk, parse_suffix configKind tail fs hs (by decide)]
  cases keys with
  | nil => exact absurd rfl hne
  | cons k ks =>
    simp only [Option.map_some, Option.bind_some, List.append_nil, Parsed.addFlag]
    rcases hs with ⟨rfl, rfl⟩ | ⟨rfl, rfl⟩
    · rfl
    · rfl

/-- C81 (partial): setting several keys sets each of them to its value, the secret
ones as secrets and the others in plain text. -/
theorem set_all_config_partial (stack : Text) (cfg : List (Text × ConfigValue))
    (hk : ∀ kv ∈ cfg, PairKey kv.1) :
    ∃ argv, launch (setAllConfigArgs stack cfg) = some argv
      ∧ configEffect argv = some (.setAll stack
          ((cfg.filter fun kv => kv.2.secret == false).map fun kv => (kv.1, kv.2.value))
          ((cfg.filter fun kv => kv.2.secret == true).map fun kv => (kv.1, kv.2.value))) := by
  obtain ⟨ts, h1, h2⟩ := reads_pairs cfg
  obtain ⟨tail, fs, hs, hl⟩ := launch_suffix (setAllConfigArgs stack cfg)
    (["config".toList, "set-all".toList, "--stack".toList, stack] ++ ts)
    (texts_append _ _ _ _ rfl h1)
  refine ⟨_, hl, ?_⟩
  show (cliParse setAllKind ("--stack".toList :: stack :: (ts ++ tail))).bind readSetAll = _
  rw [parse_value setAllKind "--stack".toList "stack".toList stack _ rfl (by decide) (by decide),
    h2, parse_suffix setAllKind tail fs hs (by decide)]
  simp only [Option.map_some, Option.bind_some, Parsed.prepend, Parsed.addFlag]
  have hv : ∀ n : Text, "stack".toList ≠ n → "non-interactive".toList ≠ n →
      Parsed.values ⟨("stack".toList, stack) :: (pairFlags cfg ++ fs), []⟩ n
        = ((pairFlags cfg).filter (fun e => decide (e.1 = n))).map (·.2) := by
    intro n hn1 hn2
    unfold Parsed.values
    rw [filter_miss _ _ _ _ hn1, List.filter_append,
      suffix_values tail fs hs n hn2, List.append_nil]
  have hh : Parsed.has ⟨("stack".toList, stack) :: (pairFlags cfg ++ fs), []⟩ "help" = false := by
    unfold Parsed.has
    rw [hv _ (by decide) (by decide), pairFlags_other cfg _ (by decide) (by decide)]
    rfl
  have hp : Parsed.has ⟨("stack".toList, stack) :: (pairFlags cfg ++ fs), []⟩ "path" = false := by
    unfold Parsed.has
    rw [hv _ (by decide) (by decide), pairFlags_other cfg _ (by decide) (by decide)]
    rfl
  have hc : Parsed.has ⟨("stack".toList, stack) :: (pairFlags cfg ++ fs), []⟩ "config-file"
      = false := by
    unfold Parsed.has
    rw [hv _ (by decide) (by decide), pairFlags_other cfg _ (by decide) (by decide)]
    rfl
  have hst : Parsed.the ⟨("stack".toList, stack) :: (pairFlags cfg ++ fs), []⟩ "stack"
      = some stack := by
    unfold Parsed.the Parsed.values
    rw [filter_hit, List.filter_append,
      pairFlags_other cfg _ (by decide) (by decide), suffix_values tail fs hs _ (by decide)]
    rfl
  unfold readSetAll
  rw [hh, hp, hc, hst, hv _ (by decide) (by decide), hv _ (by decide) (by decide),
    pairFlags_kind cfg hk false "plaintext".toList rfl,
    pairFlags_kind cfg hk true "secret".toList rfl]
  rfl

example : Plain "aws:region".toList ∧ PairKey "aws:region".toList
    ∧ ¬ Plain "--help".toList ∧ ¬ Plain "-x".toList := by
  refine ⟨rfl, by unfold PairKey; decide, ?_, ?_⟩
  · exact fun h => Word.noConfusion (h : word "--help".toList = .argument)
  · exact fun h => Word.noConfusion (h : word "-x".toList = .argument)

/-- C81 fails: removing the key `--help` succeeds and removes nothing. -/
theorem remove_help_removes_nothing (stack : Text) (h : stack ≠ NI) :
    ∃ argv, launch (removeConfigArgs stack "--help".toList) = some argv
      ∧ configEffect argv = some .help := by
  have hm : lit "--non-interactive" ∉ removeConfigArgs stack "--help".toList := by
    rw [ni_eq]
    simp only [removeConfigArgs, List.mem_cons, List.not_mem_nil, or_false, not_or]
    exact ⟨by decide, by decide, by decide, by decide, fun e => h (Arg.s.inj e).symm⟩
  refine ⟨["config".toList, "rm".toList, "--help".toList, "--stack".toList, stack, NI], ?_, ?_⟩
  · unfold launch nonInteractive
    rw [if_neg hm]
    rfl
  · show (cliParse configKind ["--help".toList, "--stack".toList, stack, NI]).bind
      (readRemove false) = _
    rw [parse_switch configKind "--help".toList "help".toList _ rfl (by decide) (by decide),
      parse_value configKind "--stack".toList "stack".toList stack _ rfl (by decide) (by decide)]
    rfl

/-- C81 fails: in `set_all_config` a key with `=` in it is cut at that character, so
another key is set to another value. -/
theorem set_all_cuts_key :
    ∃ argv, launch (setAllConfigArgs "dev".toList [("a=b".toList, ⟨"c".toList, true⟩)]) = some argv
      ∧ configEffect argv = some (.setAll "dev".toList [] [("a".toList, "b=c".toList)]) :=
  ⟨["config".toList, "set-all".toList, "--stack".toList, "dev".toList, "--secret".toList,
    "a=b=c".toList, "--non-interactive".toList], by decide, by decide⟩

/-! ## C82: commands on stacks -/

/-- C82 (partial): creating, selecting and removing a stack whose name does not look
like a flag act on that stack, creating with the secrets provider given. -/
theorem stack_commands_partial (stack : Text) (provider : Option Text) (hk : Plain stack) :
    (∃ argv p, launch (createStackArgs stack provider) = some argv
      ∧ argv.take 2 = ["stack".toList, "init".toList]
      ∧ cliParse stackKind (argv.drop 2) = some p ∧ p.args = [stack]
      ∧ p.values "secrets-provider".toList = textOf provider ∧ p.values "help".toList = [])
    ∧ (∃ argv p, launch (selectStackArgs stack) = some argv
      ∧ argv.take 2 = ["stack".toList, "select".toList]
      ∧ cliParse stackKind (argv.drop 2) = some p ∧ p.args = [stack]
      ∧ p.values "create".toList = [] ∧ p.values "help".toList = [])
    ∧ (∃ argv p, launch (removeStackArgs stack) = some argv
      ∧ argv.take 2 = ["stack".toList, "rm".toList]
      ∧ cliParse stackKind (argv.drop 2) = some p ∧ p.args = [stack]
      ∧ p.values "yes".toList = ["true".toList] ∧ p.values "force".toList = []
      ∧ p.values "help".toList = []) := by
  refine ⟨?_, ?_, ?_⟩
  · obtain ⟨ts, h1, h2⟩ := reads_text stackKind provider "--secrets-provider" "secrets-provider"
      rfl (by decide) (by decide)
    obtain ⟨tail, fs, hs, hl⟩ := launch_suffix (createStackArgs stack provider)
      (["stack".toList, "init".toList, stack] ++ ts) (texts_append _ _ _ _ rfl h1)
    refine ⟨_, ⟨flat [("secrets-provider", textOf provider)] ++ fs, [stack]⟩, hl, rfl, ?_, rfl,
      ?_, ?_⟩
    · show cliParse stackKind (stack :: (ts ++ tail)) = _
      rw [parse_arg stackKind stack _ hk, h2, parse_suffix stackKind tail fs hs (by decide)]
      rfl
    · unfold Parsed.values
      rw [List.filter_append, suffix_values tail fs hs _ (by decide), List.append_nil, flat_one,
        filter_same]
    · unfold Parsed.values
      rw [List.filter_append, suffix_values tail fs hs _ (by decide), List.append_nil, flat_one,
        filter_other _ _ _ (by decide)]
  · obtain ⟨tail, fs, hs, hl⟩ := launch_suffix (selectStackArgs stack)
      ["stack".toList, "select".toList, stack] rfl
    refine ⟨_, ⟨fs, [stack]⟩, hl, rfl, ?_, rfl, ?_, ?_⟩
    · show cliParse stackKind (stack :: tail) = _
      rw [parse_arg stackKind stack _ hk, parse_suffix stackKind tail fs hs (by decide)]
      rfl
    · unfold Parsed.values
      rw [suffix_values tail fs hs _ (by decide)]
      rfl
    · unfold Parsed.values
      rw [suffix_values tail fs hs _ (by decide)]
      rfl
  · obtain ⟨tail, fs, hs, hl⟩ := launch_suffix (removeStackArgs stack)
      ["stack".toList, "rm".toList, "--yes".toList, stack] rfl
    refine ⟨_, ⟨("yes".toList, "true".toList) :: fs, [stack]⟩, hl, rfl, ?_, rfl, ?_, ?_, ?_⟩
    · show cliParse stackKind ("--yes".toList :: stack :: tail) = _
      rw [parse_switch stackKind "--yes".toList "yes".toList _ rfl (by decide) (by decide),
        parse_arg stackKind stack _ hk, parse_suffix stackKind tail fs hs (by decide)]
      rfl
    all_goals
      rcases hs with ⟨rfl, rfl⟩ | ⟨rfl, rfl⟩ <;> rfl

/-- C82 fails: selecting a stack named `--create` selects none (and, as the name is
taken for a flag, no stack is named on the command line). -/
theorem select_flag_like :
    ∃ argv p, launch (selectStackArgs "--create".toList) = some argv
      ∧ cliParse stackKind (argv.drop 2) = some p ∧ p.args = [] :=
  ⟨["stack".toList, "select".toList, "--create".toList, "--non-interactive".toList],
    ⟨[("create".toList, "true".toList), ("non-interactive".toList, "true".toList)], []⟩,
    by decide, by decide, rfl⟩

/-! ## C83: the environment of a command -/

/-- C83: a variable of the workspace wins over the process's own, and any other
variable is inherited, for commands on the stack and on the workspace. -/
theorem env_precedence (os : Env) (w : Workspace) (k : Text) :
    (∀ v, w.envVars k = some v → processEnv os (stackEnv w) k = some v
      ∧ processEnv os (workspaceEnv w) k = some v)
    ∧ (w.envVars k = none → k ≠ "PULUMI_HOME".toList → k ≠ "PULUMI_DEBUG_COMMANDS".toList →
      processEnv os (stackEnv w) k = os k ∧ processEnv os (workspaceEnv w) k = os k) := by
  refine ⟨fun v hv => ?_, fun hv h1 h2 => ?_⟩
  · simp only [processEnv, stackEnv, workspaceEnv, Env.update, hv, Option.some_or, and_self]
  · obtain ⟨home, env⟩ := w
    simp only at hv
    constructor
    · cases home <;>
        simp only [processEnv, stackEnv, Env.update, hv, Env.one, if_neg h1, if_neg h2,
          Option.none_or]
    · match home with
      | none => simp only [processEnv, workspaceEnv, Env.update, hv, Env.none, Option.none_or]
      | some [] => simp only [processEnv, workspaceEnv, Env.update, hv, Env.none, Option.none_or]
      | some (c :: r) =>
        simp only [processEnv, workspaceEnv, Env.update, hv, Env.one, if_neg h1, Option.none_or]

/-- C83 (partial): commands on the stack and on the workspace see the same Pulumi
home, which is the workspace's when it has one.  Missing: an empty home. -/
theorem same_home_partial (os : Env) (w : Workspace) (h : w.home ≠ some []) :
    processEnv os (stackEnv w) "PULUMI_HOME".toList
      = processEnv os (workspaceEnv w) "PULUMI_HOME".toList
    ∧ ∀ p, w.home = some p → w.envVars "PULUMI_HOME".toList = none →
        processEnv os (stackEnv w) "PULUMI_HOME".toList = some p := by
  obtain ⟨home, env⟩ := w
  match home with
  | none => 
    refine ⟨?_, fun p hp => by simp at hp⟩
    have hn : "PULUMI_HOME".toList ≠ "PULUMI_DEBUG_COMMANDS".toList := by decide
    simp only [processEnv, stackEnv, workspaceEnv, Env.update, Env.one, Env.none, if_neg hn]
  | some [] => exact absurd rfl h
  | some (c :: r) =>
    refine ⟨?_, fun p hp he => ?_⟩
    · simp only [processEnv, stackEnv, workspaceEnv, Env.update, Env.one, if_true, Option.some_or]
    · simp only [Option.some.injEq] at hp
      simp only at he
      simp only [processEnv, stackEnv, Env.update, Env.one, he, hp, if_true, Option.some_or,
        Option.none_or]

/-- C83 fails: with an empty home, commands on the stack and on the workspace look
at different homes when the process has one of its own. -/
theorem empty_home_differs :
    ∃ (os : Env) (w : Workspace), w.home = some []
      ∧ processEnv os (stackEnv w) "PULUMI_HOME".toList = some []
      ∧ processEnv os (workspaceEnv w) "PULUMI_HOME".toList = some "/h".toList :=
  ⟨Env.one "PULUMI_HOME".toList "/h".toList, ⟨some [], Env.none⟩, rfl, by decide, by decide⟩

/-- C83: unless the workspace says otherwise, commands on the stack run with `PULUMI_DEBUG_COMMANDS` on, without which the CLI
has no `--event-log`, and with the workspace's home; commands on the workspace are left as they are. -/
theorem debug_commands (os : Env) (w : Workspace) (h : w.envVars "PULUMI_DEBUG_COMMANDS".toList = none) :
    processEnv os (stackEnv w) "PULUMI_DEBUG_COMMANDS".toList = some "true".toList
    ∧ processEnv os (workspaceEnv w) "PULUMI_DEBUG_COMMANDS".toList = os "PULUMI_DEBUG_COMMANDS".toList := by
  obtain ⟨home, env⟩ := w
  simp only at h
  have hn : "PULUMI_DEBUG_COMMANDS".toList ≠ "PULUMI_HOME".toList := by decide
  constructor
  · cases home <;>
      simp only [processEnv, stackEnv, Env.update, h, Env.one, if_neg hn, if_true, Option.none_or, Option.some_or]
  · match home with
    | none => simp only [processEnv, workspaceEnv, Env.update, h, Env.none, Option.none_or]
    | some [] => simp only [processEnv, workspaceEnv, Env.update, h, Env.none, Option.none_or]
    | some (c :: r) => simp only [processEnv, workspaceEnv, Env.update, h, Env.one, if_neg hn, Option.none_or]

example : (⟨some "/h".toList, Env.none⟩ : Workspace).home ≠ some [] := by decide

end Pulumi.Cli
