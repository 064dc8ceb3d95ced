import Verif.Run.Lemmas
import Verif.Cli.Args
import Batteries.Data.List.Basic

/-! # Theorems on running commands -/

namespace Pulumi.Run

open Pulumi.Cli (Text Arg lit decimal Parsed)

/-! ## C84: the output of a command -/

theorem joinLines_eq (l : List Text) : joinLines l = List.intercalate ['\n'] l := by
  induction l with
  | nil => rfl
  | cons t r ih =>
    cases r with
    | nil => simp [joinLines, List.intercalate]
    | cons u r' =>
      simp only [joinLines, ih]
      simp [List.intercalate]

theorem forall_stripped (space : Char → Bool) (hn : space '\n' = true) (ls : List Text) :
    List.Forall₂ (Stripped space) ls (ls.map fun l => rstrip space (l ++ ['\n'])) := by
  induction ls with
  | nil => exact .nil
  | cons l r ih =>
    refine .cons ?_ ih
    simp only
    rw [rstrip_newline space hn]
    exact rstrip_stripped space l

theorem forall_append {α β : Type} (R : α → β → Prop) (a c : List α) (b d : List β)
    (h : List.Forall₂ R a b) (h' : List.Forall₂ R c d) : List.Forall₂ R (a ++ c) (b ++ d) := by
  induction h with
  | nil => exact h'
  | cons h1 _ ih => exact .cons h1 ih

/-- C84: however often the process is found still running, a command that writes
these lines, the last one with or without a newline, gives each line once and in
order to the callback, without the white space at its end; the result has the same
lines, all of the standard error and the exit code; and it is an exception exactly
when the exit code is not 0. -/
theorem output_delivered (space : Char → Bool) (hn : space '\n' = true) (ls : List Text)
    (last : Text) (hls : ∀ l ∈ ls, '\n' ∉ l) (hlast : '\n' ∉ last) (err : Text) (code : Int)
    (polls : List Bool) (hp : true ∈ polls) :
    ∃ calls outcome, run space ⟨textOfLines ls ++ last, err, code⟩ polls = some (calls, outcome)
      ∧ List.Forall₂ (Stripped space) (ls ++ if last = [] then [] else [last]) calls
      ∧ (code = 0 → outcome = .ok ⟨List.intercalate ['\n'] calls, err, code⟩)
      ∧ (code ≠ 0 → ∃ e, outcome = .raised e ⟨List.intercalate ['\n'] calls, err, code⟩) := by
  refine ⟨_, _, run_done space _ polls hp, ?_, ?_, ?_⟩
  · simp only
    rw [pieces_lines ls last hls, List.map_append, List.map_map]
    refine forall_append _ _ _ _ _ (forall_stripped space hn ls) ?_
    by_cases h : last = []
    · rw [if_pos h, h]
      exact .nil
    · rw [if_neg h, pieces_last last hlast h]
      exact .cons (rstrip_stripped space last) .nil
  · intro h
    simp only
    rw [if_pos h, joinLines_eq]
  · intro h
    simp only
    rw [if_neg h, joinLines_eq]
    exact ⟨_, rfl⟩

/-- White space is what `Stripped` says it is: there is one way to strip a line. -/
theorem stripped_one (space : Char → Bool) (t u v : Text) (hu : Stripped space t u)
    (hv : Stripped space t v) : u = v := stripped_unique space t u v hu hv

/-- C84: the command does not return before its process has ended. -/
theorem waits_for_exit (space : Char → Bool) (p : Process) (polls : List Bool)
    (h : true ∉ polls) : run space p polls = none := by
  simp only [run, readLoop_running space _ polls h]

/-- Two lines, one with blanks at its end, and one without a newline. -/
example : run (fun c => c = ' ' ∨ c = '\n') ⟨"a  \n\nb".toList, "e".toList, 0⟩ [false, true]
    = some (["a".toList, [], "b".toList], .ok ⟨"a\n\nb".toList, "e".toList, 0⟩) := rfl

/-! ## C85: the class of a failure -/

/-- C85: a failing command raises an error whose class is the first that its output
names, and an error is raised for no other reason. -/
theorem error_class (space : Char → Bool) (p : Process) (polls : List Bool) (calls : List Text)
    (e : ErrorClass) (r : Result) (h : run space p polls = some (calls, .raised e r)) :
    p.code ≠ 0 ∧ Names r e ∧ r.stderr = p.errors ∧ r.code = p.code := by
  by_cases hp : true ∈ polls
  · rw [run_done space p polls hp] at h
    by_cases hc : p.code = 0
    · rw [if_pos hc] at h
      simp at h
    · rw [if_neg hc] at h
      simp only [Option.some.injEq, Prod.mk.injEq, Outcome.raised.injEq] at h
      obtain ⟨-, he, hr⟩ := h
      subst hr
      rw [← he]
      exact ⟨hc, classify_names _, rfl, rfl⟩
  · rw [waits_for_exit space p polls hp] at h
    simp at h

/-- C85: the class is determined by what the command wrote. -/
theorem error_class_unique (r : Result) (a b : ErrorClass) (ha : Names r a) (hb : Names r b) :
    a = b := names_unique r a b ha hb

/-- C85: what a program writes to the output never makes a failure one about stacks
or concurrent updates: these come from the standard error alone. -/
theorem stack_errors_from_stderr (r : Result) (stdout : Text) (e : ErrorClass)
    (he : e = .stackNotFound ∨ e = .stackAlreadyExists ∨ e = .concurrentUpdate) :
    classify r = e ↔ classify { r with stdout := stdout } = e := by
  have key : ∀ r : Result, ∀ stdout, classify r = e → classify { r with stdout := stdout } = e := by
    intro r stdout h
    apply classify_of
    have hn := classify_names r
    rw [h] at hn
    rcases he with he | he | he <;> subst he
    · cases hn with
      | notFound h => exact .notFound _ h
    · cases hn with
      | exists_ h1 h2 => exact .exists_ _ h1 h2
    · cases hn with
      | conflict h1 h2 h3 => exact .conflict _ h1 h2 h3
  refine ⟨key r stdout, fun h => ?_⟩
  exact key { r with stdout := stdout } r.stdout h

/-- A conflict, with a program that prints a panic. -/
example : Names ⟨"panic: runtime error".toList,
    "error: [409] Conflict: Another update is currently in progress.".toList, 255⟩
    .concurrentUpdate := by
  have : classify ⟨"panic: runtime error".toList,
    "error: [409] Conflict: Another update is currently in progress.".toList, 255⟩
    = .concurrentUpdate := by decide
  exact this ▸ classify_names _

/-! ## C86: creating or selecting a stack -/

/-- C86: with any CLI, the stack is selected exactly when creating it failed and said
that it exists; any other failure of creating it is raised, and nothing else is run. -/
theorem select_only_if_exists {σ : Type} (space : Char → Bool) (cli : Backend σ)
    (between : σ → σ) (name : Text) (s : σ) :
    (StackCmd.select name ∈ (createOrSelect space cli between name s).2.1 ↔
      (cli s (.create name)).2.code ≠ 0
      ∧ Says "stack".toList "already exists".toList (cli s (.create name)).2.errors
      ∧ ¬ Says "no stack named".toList "found".toList (cli s (.create name)).2.errors)
    ∧ (∀ c ∈ (createOrSelect space cli between name s).2.1,
        c = .create name ∨ c = .select name)
    ∧ ((cli s (.create name)).2.code ≠ 0 →
        StackCmd.select name ∉ (createOrSelect space cli between name s).2.1 →
        (createOrSelect space cli between name s).2.2 ≠ none
        ∧ (createOrSelect space cli between name s).1 = (cli s (.create name)).1) := by
  by_cases hc : (cli s (.create name)).2.code = 0
  · have hr := raises_ok space _ hc
    simp only [createOrSelect, hr]
    refine ⟨?_, ?_, fun h => absurd hc h⟩
    · simp [hc]
    · intro c h
      exact Or.inl (by simpa using h)
  · have hr := raises_err space _ hc
    have hn := classify_names ⟨joinLines ((pieces (cli s (.create name)).2.output).map
      (rstrip space)), (cli s (.create name)).2.errors, (cli s (.create name)).2.code⟩
    by_cases he : classify ⟨joinLines ((pieces (cli s (.create name)).2.output).map
        (rstrip space)), (cli s (.create name)).2.errors, (cli s (.create name)).2.code⟩
        = .stackAlreadyExists
    · rw [he] at hr hn
      simp only [createOrSelect, hr]
      have hs : Says "stack".toList "already exists".toList (cli s (.create name)).2.errors
          ∧ ¬ Says "no stack named".toList "found".toList (cli s (.create name)).2.errors := by
        cases hn with
        | exists_ h1 h2 => exact ⟨h2, h1⟩
      refine ⟨⟨fun _ => ⟨hc, hs⟩, fun _ => by simp⟩, ?_, fun _ h => absurd (by simp) h⟩
      intro c h
      simpa using h
    · have hcs : createOrSelect space cli between name s
          = ((cli s (.create name)).1, [.create name], some (classify
            ⟨joinLines ((pieces (cli s (.create name)).2.output).map (rstrip space)),
              (cli s (.create name)).2.errors, (cli s (.create name)).2.code⟩)) := by
        unfold createOrSelect
        rw [hr]
        split
        · rename_i h
          simp at h
        · rename_i h
          simp only [Option.some.injEq] at h
          exact absurd h he
        · rename_i e _ h
          simp only [Option.some.injEq] at h
          rw [h]
      rw [hcs]
      refine ⟨⟨fun h => by simp at h, fun ⟨_, h2, h3⟩ => ?_⟩, ?_, fun _ _ => ⟨by simp, rfl⟩⟩
      · exact absurd (classify_of ⟨_, (cli s (.create name)).2.errors, _⟩ _
          (.exists_ _ h3 h2)) he
      · intro c h
        exact Or.inl (by simpa using h)

/-- C86 (partial): the stack exists and is the current one afterwards, no stack is
lost and no error raised, whichever stacks there were.  Missing: others may remove
the stack between the two commands. -/
theorem create_or_select_partial (space : Char → Bool) (between : Stacks → Stacks) (name : Text)
    (s : Stacks) (hv : ValidName name)
    (hb : ∀ x, name ∈ x.names → name ∈ (between x).names) :
    (createOrSelect space stacksCli between name s).2.2 = none
    ∧ name ∈ (createOrSelect space stacksCli between name s).1.names
    ∧ (createOrSelect space stacksCli between name s).1.current = some name
    ∧ (name ∉ s.names → (createOrSelect space stacksCli between name s).1.names = name :: s.names)
    ∧ (name ∈ s.names →
        (createOrSelect space stacksCli between name s).1.names = (between s).names) := by
  by_cases hm : name ∈ s.names
  · have h1 : stacksCli s (.create name)
        = (s, ⟨[], "error: stack '".toList ++ name ++ "' already exists\n".toList, 255⟩) :=
      if_pos hm
    have hr : raises space (stacksCli s (.create name)).2 = some .stackAlreadyExists := by
      rw [raises_err space _ (by rw [h1]; show (255 : Int) ≠ 0; decide), h1]
      have hx := exists_message name hv [] 255
      exact congrArg some (classify_of _ _ (.exists_ _ hx.1 hx.2))
    have hb' := hb s hm
    have h2 : stacksCli (between s) (.select name)
        = (⟨(between s).names, some name⟩, ⟨[], [], 0⟩) := if_pos hb'
    have hcs : createOrSelect space stacksCli between name s
        = (⟨(between s).names, some name⟩, [.create name, .select name], none) := by
      simp only [createOrSelect, hr]
      rw [h1]
      simp only
      rw [h2, raises_ok space _ rfl]
    rw [hcs]
    exact ⟨rfl, hb', rfl, fun h => absurd hm h, fun _ => rfl⟩
  · have h1 : stacksCli s (.create name) = (⟨name :: s.names, some name⟩,
        ⟨"Created stack '".toList ++ name ++ "'\n".toList, [], 0⟩) := if_neg hm
    have hcs : createOrSelect space stacksCli between name s
        = (⟨name :: s.names, some name⟩, [.create name], none) := by
      have hr := raises_ok space (stacksCli s (.create name)).2 (by rw [h1])
      simp only [createOrSelect, hr]
      rw [h1]
    rw [hcs]
    exact ⟨rfl, by simp, rfl, fun _ => rfl, fun h => absurd h hm⟩

example : ValidName "org/proj/dev-1".toList := by unfold ValidName; decide

/-- C86 fails: if the stack is removed by others after it was found to exist,
`create_or_select` raises that there is no such stack. -/
theorem create_or_select_races (space : Char → Bool) (name : Text) (hv : ValidName name) :
    createOrSelect space stacksCli (fun s => ⟨s.names.erase name, s.current⟩) name
        ⟨[name], none⟩
      = (⟨[], none⟩, [.create name, .select name], some .stackNotFound) := by
  have h1 : stacksCli ⟨[name], none⟩ (.create name)
      = (⟨[name], none⟩,
        ⟨[], "error: stack '".toList ++ name ++ "' already exists\n".toList, 255⟩) :=
    if_pos (by simp)
  have hr : raises space (stacksCli ⟨[name], none⟩ (.create name)).2
      = some .stackAlreadyExists := by
    rw [raises_err space _ (by rw [h1]; show (255 : Int) ≠ 0; decide), h1]
    have hx := exists_message name hv [] 255
    exact congrArg some (classify_of _ _ (.exists_ _ hx.1 hx.2))
  have hb : (⟨([name] : List Text).erase name, none⟩ : Stacks) = ⟨[], none⟩ := by simp
  have h2 : stacksCli ⟨[], none⟩ (.select name)
      = (⟨[], none⟩, ⟨[], "error: no stack named '".toList ++ name ++ "' found\n".toList, 255⟩) :=
    rfl
  have hr2 : raises space (stacksCli ⟨[], none⟩ (.select name)).2 = some .stackNotFound := by
    rw [raises_err space _ (by rw [h2]; show (255 : Int) ≠ 0; decide), h2]
    exact congrArg some (classify_of _ _ (.notFound _ (notFound_message name hv [] 255)))
  simp only [createOrSelect, hr]
  rw [h1]
  simp only
  rw [hb, hr2, h2]

/-! ## C87: the version of the CLI -/

theorem newer_minimum (v : Registry.Version) (hm : v.major ≤ 3) :
    ¬ Registry.Newer minimum v ↔ Supported v := by
  obtain ⟨ma, mi, pa, pre⟩ := v
  simp only [Registry.Newer, minimum, Supported] at hm ⊢
  by_cases hp : pre = []
  · simp only [hp, ne_eq, not_true_eq_false, and_false, false_and, or_false, or_true, and_true]
    omega
  · simp only [hp, ne_eq, not_false_eq_true, and_true, not_true_eq_false, false_and,
      or_false]
    omega

/-- C87 (partial): a workspace accepts exactly the versions of the CLI that it works
with, or any when the check is turned off in the process's or the workspace's
environment; a version that cannot be read counts as none.  Missing: a CLI that
prints nothing. -/
theorem version_check_partial (parse : Text → Option Registry.Version) (space : Char → Bool)
    (stdout t : Text) (osVar envVar : Option Text) (ht : versionText space stdout = some t) :
    (checkVersion parse space stdout osVar envVar = .accepted (parse t)
      ∧ (osVar.isSome ∨ envVar.isSome ∨ ∃ v, parse t = some v ∧ Supported v))
    ∨ (checkVersion parse space stdout osVar envVar = .invalid
      ∧ osVar = none ∧ envVar = none ∧ ∀ v, parse t = some v → ¬ Supported v) := by
  simp only [checkVersion, ht, validate]
  by_cases ho : (osVar.isSome || envVar.isSome) = true
  · rw [if_pos ho]
    refine Or.inl ⟨rfl, ?_⟩
    rw [Bool.or_eq_true] at ho
    exact ho.elim Or.inl (fun h => Or.inr (Or.inl h))
  · rw [if_neg ho]
    have hn : osVar = none ∧ envVar = none := by
      cases osVar <;> cases envVar <;> simp at ho <;> exact ⟨rfl, rfl⟩
    cases hp : parse t with
    | none => exact Or.inr ⟨rfl, hn.1, hn.2, fun v h => by simp at h⟩
    | some v =>
      simp only
      by_cases h1 : minimum.major < v.major
      · rw [if_pos h1]
        refine Or.inr ⟨rfl, hn.1, hn.2, fun w hw hs => ?_⟩
        simp only [Option.some.injEq] at hw
        subst hw
        have h3 : (3 : Nat) < v.major := h1
        have := hs.1
        omega
      · rw [if_neg h1]
        have h3 : v.major ≤ 3 := Nat.not_lt.mp h1
        by_cases h2 : minimum.cmp v = .gt
        · rw [if_pos h2]
          refine Or.inr ⟨rfl, hn.1, hn.2, fun w hw hs => ?_⟩
          simp only [Option.some.injEq] at hw
          subst hw
          exact (newer_minimum v h3).mpr hs (Registry.cmp_gt.mp h2)
        · rw [if_neg h2]
          refine Or.inl ⟨rfl, Or.inr (Or.inr ⟨v, rfl, ?_⟩)⟩
          exact (newer_minimum v h3).mp (fun h => h2 (Registry.cmp_gt.mpr h))

/-- C87: the text that is parsed is the CLI's output without white space around it
and without a leading `v`. -/
theorem version_text (space : Char → Bool) (before v after : Text)
    (hb : ∀ c ∈ before, space c = true) (ha : ∀ c ∈ after, space c = true) (hv : v ≠ [])
    (hh : ∀ c, v.head? = some c → space c = false) (hl : ∀ c, v.getLast? = some c → space c = false) :
    versionText space (before ++ v ++ after)
      = if v.head? = some 'v' then some v.tail else some v := by
  have h1 : (before ++ v ++ after).dropWhile space = v ++ after := by
    rw [List.append_assoc]
    induction before with
    | nil =>
      cases v with
      | nil => exact absurd rfl hv
      | cons c r =>
        exact List.dropWhile_cons_of_neg (by rw [hh c rfl]; decide)
    | cons c r ih =>
      rw [List.cons_append, List.dropWhile_cons_of_pos (hb c (by simp))]
      exact ih (fun d hd => hb d (by simp [hd]))
  have h2 : rstrip space (v ++ after) = v :=
    stripped_unique space (v ++ after) _ _ (rstrip_stripped space _) ⟨⟨after, rfl, ha⟩, hl⟩
  unfold versionText
  rw [h1, h2]
  cases v with
  | nil => exact absurd rfl hv
  | cons c r =>
    simp only [List.head?_cons, Option.some.injEq, List.tail_cons]

example : versionText (fun c => c = ' ' ∨ c = '\n') "v3.40.1\n".toList = some "3.40.1".toList
    ∧ Supported ⟨3, 40, 1, []⟩ ∧ ¬ Supported ⟨3, 1, 0, [.alpha "rc"]⟩ ∧ ¬ Supported ⟨4, 0, 0, []⟩ := by
  refine ⟨by decide, ?_, ?_, ?_⟩ <;> simp [Supported]

/-- C87 fails: a CLI that prints nothing makes the workspace raise an `IndexError`,
even with the check turned off. -/
theorem empty_version_raises (parse : Text → Option Registry.Version) (osVar envVar : Option Text) :
    checkVersion parse (fun c => c = ' ' ∨ c = '\n') "\n".toList osVar envVar = .indexError := rfl

/-! ## C88: history -/

theorem decimal_inj (a b : Int) (h : decimal a = decimal b) : a = b := by
  have h' : (Int.repr a).toList = (Int.repr b).toList := h
  exact Int.repr_inj.mp (String.toList_inj.mp h')

/-- The flags of `history` on the command line. -/
def historyFlags (pageSize page : Option Int) (showSecrets : Bool) (stack : Text) :
    List (Text × Text) :=
  [("json".toList, "true".toList)]
  ++ (if showSecrets then [("show-secrets".toList, "true".toList)] else [])
  ++ (match pageSize with
      | some n => [("page-size".toList, decimal n), ("page".toList, decimal (page.getD 1))]
      | none => [])
  ++ [("stack".toList, stack)]

theorem history_parse (pageSize page : Option Int) (showSecrets : Bool) (stack : Text) :
    ∃ argv fs tail, Cli.launch (historyArgs pageSize page showSecrets
        ++ [lit "--stack", .s stack]) = some argv
      ∧ argv.take 2 = ["stack".toList, "history".toList]
      ∧ Cli.Suffix tail fs
      ∧ Cli.cliParse historyKind (argv.drop 2)
        = some ⟨historyFlags pageSize page showSecrets stack ++ fs, []⟩ := by
  have hj := Cli.reads_switch historyKind "--json" "json".toList rfl (by decide) (by decide)
  have hst := Cli.reads_value historyKind "--stack" "stack".toList stack rfl (by decide) (by decide)
  have hs : Cli.Reads historyKind (if showSecrets then [lit "--show-secrets"] else [])
      (if showSecrets then [("show-secrets".toList, "true".toList)] else []) := by
    cases showSecrets
    · exact Cli.Reads.nil _
    · exact Cli.reads_switch historyKind "--show-secrets" "show-secrets".toList rfl (by decide)
        (by decide)
  have hp : Cli.Reads historyKind
      (match pageSize with
        | some n => [lit "--page-size", .s (decimal n), lit "--page", .s (decimal (page.getD 1))]
        | none => [])
      (match pageSize with
        | some n => [("page-size".toList, decimal n), ("page".toList, decimal (page.getD 1))]
        | none => []) := by
    cases pageSize with
    | none => exact Cli.Reads.nil _
    | some n =>
      exact (Cli.reads_value historyKind "--page-size" "page-size".toList _ rfl (by decide)
        (by decide)).append (Cli.reads_value historyKind "--page" "page".toList _ rfl (by decide)
        (by decide))
  obtain ⟨ts, h1, h2⟩ := ((hj.append hs).append hp).append hst
  have hts : Cli.texts (historyArgs pageSize page showSecrets ++ [lit "--stack", .s stack])
      = some (["stack".toList, "history".toList] ++ ts) := by
    have := Cli.texts_append [lit "stack", lit "history"] _ _ ts rfl h1
    rw [← this]
    rfl
  obtain ⟨tail, fs, hsuf, hl⟩ := Cli.launch_suffix _ _ hts
  refine ⟨_, fs, tail, hl, rfl, hsuf, ?_⟩
  show Cli.cliParse historyKind (ts ++ tail) = _
  rw [h2, Cli.parse_suffix historyKind tail fs hsuf (by decide)]
  rfl

theorem history_values (pageSize page : Option Int) (showSecrets : Bool) (stack : Text)
    (fs : List (Text × Text)) (tail : List Text) (h : Cli.Suffix tail fs) :
    Parsed.values ⟨historyFlags pageSize page showSecrets stack ++ fs, []⟩ "page-size".toList
      = (pageSize.map decimal).toList
    ∧ Parsed.values ⟨historyFlags pageSize page showSecrets stack ++ fs, []⟩ "page".toList
      = (pageSize.map fun _ => decimal (page.getD 1)).toList := by
  unfold Parsed.values
  simp only [List.filter_append, Cli.suffix_values tail fs h "page-size".toList (by decide),
    Cli.suffix_values tail fs h "page".toList (by decide), List.append_nil]
  cases pageSize <;> cases showSecrets <;> exact ⟨rfl, rfl⟩

/-- C88 (partial): with a page size, `history` gives that page, the first one when no
page is given. -/
theorem history_pages_partial {α : Type} (n : Int) (hn : 0 < n) (page : Option Int)
    (showSecrets : Bool) (stack : Text) :
    ∃ argv p, Cli.launch (historyArgs (some n) page showSecrets ++ [lit "--stack", .s stack])
        = some argv
      ∧ argv.take 2 = ["stack".toList, "history".toList]
      ∧ Cli.cliParse historyKind (argv.drop 2) = some p ∧ p.args = []
      ∧ ∀ full shown : List α, Shows p full shown ↔
        shown = (full.drop ((max (page.getD 1) 1 - 1) * n).toNat).take n.toNat := by
  obtain ⟨argv, fs, tail, h1, h2, h3, h4⟩ := history_parse (some n) page showSecrets stack
  obtain ⟨v1, v2⟩ := history_values (some n) page showSecrets stack fs tail h3
  refine ⟨argv, _, h1, h2, h4, rfl, fun full shown => ⟨?_, ?_⟩⟩
  · rintro ⟨n', k, hs, hk, hsh⟩
    have en : n' = n := by
      rcases hs with ⟨h, -⟩ | h
      · rw [v1] at h; simp at h
      · rw [v1] at h
        simp only [Option.map_some, Option.toList_some, List.cons.injEq, and_true] at h
        exact (decimal_inj _ _ h).symm
    have ek : k = page.getD 1 := by
      rcases hk with ⟨h, -⟩ | h
      · rw [v2] at h; simp at h
      · rw [v2] at h
        simp only [Option.map_some, Option.toList_some, List.cons.injEq, and_true] at h
        exact (decimal_inj _ _ h).symm
    rw [hsh, en, ek, if_pos hn]
  · intro h
    exact ⟨n, page.getD 1, Or.inr v1, Or.inr v2, by rw [if_pos hn, h]⟩

/-- C88 fails: without a page size `history` gives the ten newest entries, not all,
and whatever page is asked for. -/
theorem history_default_ten {α : Type} (page : Option Int) (showSecrets : Bool) (stack : Text) :
    ∃ argv p, Cli.launch (historyArgs none page showSecrets ++ [lit "--stack", .s stack])
        = some argv
      ∧ Cli.cliParse historyKind (argv.drop 2) = some p
      ∧ ∀ full shown : List α, Shows p full shown ↔ shown = full.take 10 := by
  obtain ⟨argv, fs, tail, h1, h2, h3, h4⟩ := history_parse none page showSecrets stack
  obtain ⟨v1, v2⟩ := history_values none page showSecrets stack fs tail h3
  refine ⟨argv, _, h1, h4, fun full shown => ⟨?_, ?_⟩⟩
  · rintro ⟨n', k, hs, hk, hsh⟩
    have en : n' = 10 := by
      rcases hs with ⟨-, h⟩ | h
      · exact h
      · rw [v1] at h; simp at h
    have ek : k = 1 := by
      rcases hk with ⟨-, h⟩ | h
      · exact h
      · rw [v2] at h; simp at h
    rw [hsh, en, ek]
    simp
  · intro h
    exact ⟨10, 1, Or.inl ⟨v1, rfl⟩, Or.inl ⟨v2, rfl⟩, by rw [h]; simp⟩

/-- C88: `info` gives the newest entry, or nothing for an empty history. -/
theorem info_newest {α : Type} (showSecrets : Bool) (stack : Text) :
    ∃ argv p, Cli.launch (infoArgs showSecrets ++ [lit "--stack", .s stack]) = some argv
      ∧ Cli.cliParse historyKind (argv.drop 2) = some p
      ∧ ∀ full shown : List α, Shows p full shown → infoOf shown = full.head? := by
  obtain ⟨argv, p, h1, -, h3, -, h5⟩ :=
    history_pages_partial (α := α) 1 (by decide) none showSecrets stack
  refine ⟨argv, p, h1, h3, fun full shown h => ?_⟩
  rw [(h5 full shown).mp h]
  cases full <;> rfl

/-! ## C89: outputs -/

/-- C89 (partial): the outputs are those of the stack with their plain values, and
each is marked secret exactly when there is a secret in it.  Missing: secrets inside
a value, and an output that is the text `[secret]`. -/
theorem outputs_partial (outs : List (Text × S)) (hd : (outs.map (·.1)).Nodup)
    (hs : ∀ e ∈ outs, e.2 ≠ .str "[secret]".toList)
    (htop : ∀ e ∈ outs, HasSecret e.2 → ∃ s, e.2 = .secret s) :
    ∃ r, stackOutputs (outputJson false outs) (outputJson true outs) = some r
      ∧ r.map (fun e => (e.1, e.2.1)) = outputJson true outs
      ∧ ∀ k s v b, (k, s) ∈ outs → (k, v, b) ∈ r → (b = true ↔ HasSecret s) := by
  have h := stackOutputs_sub outs outs hd (fun _ h => h)
  refine ⟨_, h, ?_, ?_⟩
  · simp [outputJson]
  · intro k s v b hks hr
    obtain ⟨⟨k', s'⟩, hm, he⟩ := List.mem_map.mp hr
    simp only [Prod.mk.injEq] at he
    obtain ⟨e1, -, e3⟩ := he
    have hss : s' = s := by
      have g1 := getKey_outputs false outs hd k s hks
      clear h hr
      subst e1
      induction outs with
      | nil => simp at hm
      | cons e t ih =>
        simp only [List.map_cons, List.nodup_cons] at hd
        rcases List.mem_cons.mp hm with h1 | h1
        · rcases List.mem_cons.mp hks with h2 | h2
          · rw [← h1] at h2
            simp only [Prod.mk.injEq, true_and] at h2
            exact h2.symm
          · exact absurd (List.mem_map.mpr ⟨(k', s), h2, by rw [← h1]⟩) hd.1
        · rcases List.mem_cons.mp hks with h2 | h2
          · exact absurd (List.mem_map.mpr ⟨(k', s'), h1, by rw [← h2]⟩) hd.1
          · exact ih hd.2 (fun x hx => hs x (by simp [hx])) (fun x hx => htop x (by simp [hx]))
              h1 h2 (getKey_outputs false t hd.2 k' s h2)
    subst hss
    rw [← e3]
    constructor
    · intro hb
      cases hsv : s' with
      | str t =>
        rw [hsv] at hb
        have ht : t = "[secret]".toList := of_decide_eq_true hb
        exact absurd (by rw [hsv, ht]) (hs _ hks)
      | atom n => rw [hsv] at hb; exact Bool.noConfusion (hb : false = true)
      | arr l => rw [hsv] at hb; exact Bool.noConfusion (hb : false = true)
      | obj l => rw [hsv] at hb; exact Bool.noConfusion (hb : false = true)
      | secret x => exact .here x
    · intro hb
      obtain ⟨x, hx⟩ := htop _ hks hb
      simp only at hx
      rw [hx]
      show decide ("[secret]".toList = "[secret]".toList) = true
      exact decide_eq_true rfl

/-- A secret output and a plain one. -/
def sampleOutputs : List (Text × S) :=
  [("password".toList, .secret (.str "hunter2".toList)), ("url".toList, .str "http".toList)]

example : (sampleOutputs.map (·.1)).Nodup
    ∧ (∀ e ∈ sampleOutputs, e.2 ≠ .str "[secret]".toList)
    ∧ (∀ e ∈ sampleOutputs, HasSecret e.2 → ∃ s, e.2 = .secret s) := by
  refine ⟨by decide, ?_, ?_⟩
  · intro e he h
    rcases List.mem_cons.mp he with rfl | he
    · cases h
    · rcases List.mem_cons.mp he with rfl | he
      · simp only [S.str.injEq] at h
        exact absurd h (by decide)
      · simp at he
  · intro e he h
    rcases List.mem_cons.mp he with rfl | he
    · exact ⟨_, rfl⟩
    · rcases List.mem_cons.mp he with rfl | he
      · cases h
      · simp at he

/-- C89 fails: an output with a secret inside it comes in plain text and is marked as
not secret. -/
theorem nested_secret_shown :
    ∃ outs s, ("db".toList, s) ∈ outs ∧ HasSecret s
      ∧ stackOutputs (outputJson false outs) (outputJson true outs)
        = some [("db".toList, .obj [("password".toList, .str "hunter2".toList)], false)] :=
  ⟨[("db".toList, .obj [("password".toList, .secret (.str "hunter2".toList))])], _,
    List.mem_singleton.mpr rfl,
    .obj _ "password".toList _ (List.mem_singleton.mpr rfl) (.here _), rfl⟩

/-- C89 fails: an output that is the text `[secret]` is marked as a secret. -/
theorem sentinel_marked :
    ∃ outs, (∀ e ∈ outs, ¬ HasSecret e.2)
      ∧ stackOutputs (outputJson false outs) (outputJson true outs)
        = some [("a".toList, .str "[secret]".toList, true)] :=
  ⟨[("a".toList, .str "[secret]".toList)], by
    intro e he h
    rcases List.mem_cons.mp he with rfl | he
    · cases h
    · simp at he, rfl⟩

/-- C89 fails: the outputs are read by two commands, and when an update adds an
output between them, reading the outputs raises. -/
theorem outputs_race (before after : List (Text × S)) (k : Text) (s : S)
    (ha : (k, s) ∈ after) (hb : k ∉ before.map (·.1)) :
    stackOutputs (outputJson false before) (outputJson true after) = none := by
  cases h : stackOutputs (outputJson false before) (outputJson true after) with
  | none => rfl
  | some r =>
    have hk := stackOutputs_keys _ _ r h k (s.json true)
      (List.mem_map.mpr ⟨(k, s), ha, rfl⟩)
    exfalso
    apply hk
    clear h hk
    induction before with
    | nil => rfl
    | cons e t ih =>
      simp only [List.map_cons, List.mem_cons, not_or] at hb
      simp only [outputJson, List.map_cons, getKey, if_neg (Ne.symm hb.1)]
      exact ih hb.2

/-! ## C90: importing a deployment -/

/-- C90 (partial): an import that succeeds leaves the files as they were. -/
theorem import_cleans_partial (files : List Text) (tmp : Text) :
    importStack files tmp false = files := by
  simp [importStack]

/-- C90 fails: an import that fails leaves the file with the deployment, secrets in
plain text. -/
theorem import_leaves_file (files : List Text) (tmp : Text) :
    tmp ∈ importStack files tmp true := by
  simp [importStack]

end Pulumi.Run
