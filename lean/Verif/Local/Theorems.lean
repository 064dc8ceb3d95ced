import Verif.Local.Lemmas

/-! # Theorems on settings files, workspaces and lists -/

namespace Pulumi.Local

open Pulumi.Cli (Text Arg lit)

/-! ## C91: settings of a stack that were saved are read back -/

/-- C91 (partial): settings whose values are texts are read back as they were saved,
whatever settings files there are; empty texts and an empty config come back as
`None`.  Missing: config values that are not texts. -/
theorem stack_settings_round_partial (f : Files) (name : Text) (s : StackSettings) (h : Texts s) :
    (saveStackSettings f name s).2 = none
    ∧ ∃ t, loadStackSettings (saveStackSettings f name s).1 name = .ok t ∧ Same s t := by
  obtain ⟨h1, -, h3⟩ := load_saved f name s (hasObj_serialize s h)
  refine ⟨h1, ?_⟩
  rw [h3, deserialize_serialize]
  match hc : s.config with
  | none =>
    refine ⟨_, rfl, sameField_text _ h.provider, sameField_text _ h.key,
      sameField_text _ h.salt, ?_⟩
    rw [hc]
  | some [] =>
    refine ⟨_, rfl, sameField_text _ h.provider, sameField_text _ h.key,
      sameField_text _ h.salt, ?_⟩
    rw [hc]; rfl
  | some (e :: r) =>
    have hr := readEntries_texts (e :: r) (fun x hx => h.config x (by rw [hc]; exact hx))
    have hcfg : readConfig (configValueOf (some (e :: r))) = .ok (some (e :: r)) := by
      simp only [configValueOf, readConfig, hr, Except.map]
    rw [hcfg]
    refine ⟨_, rfl, sameField_text _ h.provider, sameField_text _ h.key,
      sameField_text _ h.salt, ?_⟩
    rw [hc]

/-- Settings with a plain and a secure value. -/
def sampleSettings : StackSettings :=
  { secretsProvider := .str "awskms://k".toList, encryptedKey := .null, encryptionSalt := .str []
    config := some [("app:region".toList, .plain (.str "eu".toList)),
      ("app:token".toList, .secure (.str "v1:abc".toList))] }

example : Texts sampleSettings := by
  refine ⟨.text _, .none, .text _, ?_⟩
  intro e he
  simp only [sampleSettings, Option.getD_some, List.mem_cons, List.not_mem_nil, or_false] at he
  rcases he with rfl | rfl
  · exact .plain _
  · exact .secure _

/-- C91 fails: settings with a number, a boolean or `None` in their config are saved,
and reading them raises from then on. -/
theorem number_makes_unreadable (f : Files) (name : Text) (s : StackSettings)
    (c : List (Text × Val)) (hc : s.config = some c) (k : Text) (d : D)
    (hm : (k, .plain d) ∈ c) (hd : d = .null ∨ (∃ b, d = .bool b) ∨ ∃ n, d = .int n)
    (ho : (serialize s).hasObj = false) :
    (saveStackSettings f name s).2 = none
    ∧ ∃ e, loadStackSettings (saveStackSettings f name s).1 name = .error e := by
  obtain ⟨h1, -, h3⟩ := load_saved f name s ho
  refine ⟨h1, ?_⟩
  rw [h3, deserialize_serialize, hc]
  have he : readEntry d = .error .typeError := by
    rcases hd with rfl | ⟨b, rfl⟩ | ⟨n, rfl⟩ <;> rfl
  obtain ⟨e', h'⟩ := readEntries_error (c.map writeEntry) k d
    (List.mem_map.2 ⟨(k, .plain d), hm, rfl⟩) _ he
  match c, hm, h' with
  | _ :: _, _, h' => exact ⟨e', by simp only [configValueOf, readConfig, h', Except.map]⟩

/-- C91 fails: a list, or a mapping without the key `secure`, in the config is lost. -/
theorem structured_lost (f : Files) (name : Text) (s t : StackSettings)
    (c : List (Text × Val)) (hc : s.config = some c) (hn : (c.map (·.1)).Nodup) (k : Text) (d : D)
    (hm : (k, .plain d) ∈ c) (hd : (∃ l, d = .list l) ∨ ∃ l, d = .dict l ∧ hasKey "secure".toList l = false)
    (ho : (serialize s).hasObj = false)
    (ht : loadStackSettings (saveStackSettings f name s).1 name = .ok t) :
    k ∉ (t.config.getD []).map (·.1) := by
  obtain ⟨-, -, h3⟩ := load_saved f name s ho
  rw [h3, deserialize_serialize, hc] at ht
  match c, hm, hn, ht with
  | a :: r, hm, hn, ht =>
    simp only [configValueOf, readConfig] at ht
    cases hr : readEntries ((a :: r).map writeEntry) with
    | error e => rw [hr] at ht; simp [Except.map] at ht
    | ok vs =>
      rw [hr] at ht
      simp only [Except.map, Except.ok.injEq] at ht
      subst ht
      intro hk
      simp only [Option.getD_some, List.mem_map] at hk
      obtain ⟨⟨k', v⟩, hv, rfl⟩ := hk
      have h4 : ((writeEntry (k', v)).1, (writeEntry (k', v)).2) ∈ vs.map writeEntry :=
        List.mem_map.2 ⟨_, hv, rfl⟩
      obtain ⟨h5, h6⟩ := (readEntries_written _ _ hr _ _).1 h4
      have hk' : (writeEntry (k', v)).1 = k' := by cases v <;> rfl
      rw [hk'] at h5
      -- the only entry with this key is the one of the list or mapping
      have h7 : (k', d) ∈ (a :: r).map writeEntry := List.mem_map.2 ⟨(k', .plain d), hm, rfl⟩
      have hn' : (((a :: r).map writeEntry).map (·.1)).Nodup := by
        rw [List.map_map]
        have : ((fun x : Text × D => x.1) ∘ writeEntry) = (fun x : Text × Val => x.1) := by
          funext x
          obtain ⟨x1, x2⟩ := x
          cases x2 <;> rfl
        rw [this]
        exact hn
      have h8 : (writeEntry (k', v)).2 = d := by
        have key : ∀ l : List (Text × D), (l.map (·.1)).Nodup → ∀ x y, (k', x) ∈ l → (k', y) ∈ l →
            x = y := by
          intro l hl x y hx hy
          induction l with
          | nil => simp at hx
          | cons b l ih =>
            simp only [List.map_cons, List.nodup_cons] at hl
            rcases List.mem_cons.1 hx with hx | hx <;> rcases List.mem_cons.1 hy with hy | hy
            · rw [← hx] at hy; exact (Prod.mk.inj hy).2.symm
            · exact absurd (List.mem_map.2 ⟨_, hy, by rw [← hx]⟩) hl.1
            · exact absurd (List.mem_map.2 ⟨_, hx, by rw [← hy]⟩) hl.1
            · exact ih hl.2 hx hy
        exact key _ hn' _ _ h5 h7
      rw [h8] at h6
      rcases hd with ⟨l, rfl⟩ | ⟨l, rfl, hl⟩
      · cases h6
      · cases h6 with
        | secure x => simp [hasKey] at hl

/-- A list in the config: saved, and gone when read. -/
example : (serialize { sampleSettings with
      config := some [("zones".toList, .plain (.list [.str "a".toList]))] }).hasObj = false
    ∧ (loadStackSettings (saveStackSettings (fun _ => none) "dev".toList { sampleSettings with
      config := some [("zones".toList, .plain (.list [.str "a".toList]))] }).1 "dev".toList).toOption.isSome
      = true := by decide

/-! ## C92: reading the settings of a stack and saving them back -/

/-- C92 (partial): for a file with the keys that the CLI writes, where every value is
a text or a secure value, reading the settings and saving them back leaves every
key of the file as it was. -/
theorem resave_keeps_partial (f : Files) (name : Text) (l : List (Text × D))
    (hf : firstFile f (stackBase name) = some (.data (.dict l))) (ho : hasObjEntries l = false)
    (hk : ∀ k, k ∉ stackKeys → get k l = .null)
    (hp : AbsentOrText (get "secretsprovider".toList l))
    (he : AbsentOrText (get "encryptedkey".toList l))
    (hs : AbsentOrText (get "encryptionsalt".toList l))
    (hc : get "config".toList l = .null
      ∨ ∃ e r, get "config".toList l = .dict (e :: r) ∧ ∀ x ∈ e :: r, Kept x.2) :
    ∃ s, loadStackSettings f name = .ok s ∧ (saveStackSettings f name s).2 = none
      ∧ ∃ l', firstFile (saveStackSettings f name s).1 (stackBase name) = some (.data (.dict l'))
        ∧ ∀ k, get k l' = get k l := by
  have hload : loadStackSettings f name = deserialize (.dict l) := by
    unfold loadStackSettings
    rw [hf]
    simp [load, D.hasObj, ho, Except.bind]
  have htr : ∀ d, AbsentOrText d → (if truthy d then d else .null) = d := by
    rintro d (rfl | ⟨c, t, rfl⟩) <;> rfl
  have hcfg : ∃ c, readConfig (get "config".toList l) = .ok c
      ∧ configValueOf c = get "config".toList l := by
    rcases hc with h | ⟨e, r, h, hx⟩
    · exact ⟨none, by rw [h]; rfl, by rw [h]; rfl⟩
    · obtain ⟨vs, h1, h2⟩ := readEntries_kept (e :: r) hx
      refine ⟨some vs, by rw [h]; simp only [readConfig, h1, Except.map], ?_⟩
      rw [h]
      match vs, h2 with
      | [], h2 => simp at h2
      | v :: vs, h2 => simp only [configValueOf, h2]
  obtain ⟨c, hc1, hc2⟩ := hcfg
  have hd : deserialize (.dict l) = .ok ⟨get "secretsprovider".toList l,
      get "encryptedkey".toList l, get "encryptionsalt".toList l, c⟩ := by
    simp only [deserialize, hc1, Except.map]
  refine ⟨_, hload.trans hd, ?_⟩
  have hno := read_no_obj l ho _ hd
  obtain ⟨h1, h2, -⟩ := load_saved f name _ hno
  refine ⟨h1, _, by rw [h2, serialize_eq], ?_⟩
  intro k
  by_cases hmem : k ∈ stackKeys
  · simp only [stackKeys, List.map_cons, List.map_nil, List.mem_cons, List.not_mem_nil,
      or_false] at hmem
    rcases hmem with rfl | rfl | rfl | rfl
    · rw [get_provider]; exact htr _ hp
    · rw [get_key]; exact htr _ he
    · rw [get_salt]; exact htr _ hs
    · rw [get_written_config]; exact hc2
  · rw [get_written_other _ _ hmem, hk k hmem]

/-- A file as the CLI writes it. -/
def sampleFile : List (Text × D) :=
  [("config".toList, .dict [("app:region".toList, .str "eu".toList),
      ("app:token".toList, .dict [("secure".toList, .str "v1:abc".toList)])]),
    ("encryptionsalt".toList, .str "v1:salt".toList)]

example : hasObjEntries sampleFile = false
    ∧ AbsentOrText (get "encryptionsalt".toList sampleFile)
    ∧ ∃ e r, get "config".toList sampleFile = .dict (e :: r) ∧ ∀ x ∈ e :: r, Kept x.2 :=
  ⟨by decide, Or.inr ⟨_, _, rfl⟩, _, _, rfl, by
    intro x hx
    simp only [List.mem_cons, List.not_mem_nil, or_false] at hx
    rcases hx with rfl | rfl
    · exact .text _
    · exact .secure _⟩

/-- C92: exactly which entries of a config survive.  Reading the settings and saving
them back deletes every other entry, and every other key of the file. -/
theorem resave_deletes (f : Files) (name : Text) (l c : List (Text × D)) (s : StackSettings)
    (hf : firstFile f (stackBase name) = some (.data (.dict l))) (ho : hasObjEntries l = false)
    (hc : get "config".toList l = .dict c) (hs : loadStackSettings f name = .ok s) :
    ∃ l', firstFile (saveStackSettings f name s).1 (stackBase name) = some (.data (.dict l'))
      ∧ (∀ k d, (k, d) ∈ entriesOf (get "config".toList l') ↔ (k, d) ∈ c ∧ Kept d)
      ∧ ∀ k, k ∉ stackKeys → get k l' = .null := by
  have hload : deserialize (.dict l) = .ok s := by
    rw [← hs]
    unfold loadStackSettings
    rw [hf]
    simp [load, D.hasObj, ho, Except.bind]
  obtain ⟨-, h2, -⟩ := load_saved f name s (read_no_obj l ho s hload)
  refine ⟨written s, h2, ?_, fun k hk => get_written_other s k hk⟩
  intro k d
  rw [get_written_config]
  simp only [deserialize, hc, readConfig] at hload
  cases hr : readEntries c with
  | error e => rw [hr] at hload; simp [Except.map] at hload
  | ok vs =>
    rw [hr] at hload
    simp only [Except.map, Except.ok.injEq] at hload
    subst hload
    rw [← readEntries_written c vs hr k d]
    match vs with
    | [] => simp [configValueOf, entriesOf]
    | v :: vs => rfl

/-- A file with an object, as the CLI writes it for `pulumi config set --path`: it
is read, and the object is not `Kept`. -/
example : (deserialize (.dict [("config".toList, .dict [("app:tags".toList,
      .dict [("env".toList, .str "prod".toList)])])])).toOption.isSome = true
    ∧ ¬ Kept (.dict [("env".toList, .str "prod".toList)]) := by
  refine ⟨by decide, ?_⟩
  intro h
  generalize hd : D.dict [("env".toList, .str "prod".toList)] = d at h
  cases h with
  | text t => exact D.noConfusion hd
  | secure x =>
    simp only [D.dict.injEq, List.cons.injEq, Prod.mk.injEq] at hd
    exact absurd hd.1.1 (by decide)

/-! ## C93: settings do not interfere -/

/-- C93: saving the settings of a stack writes one file of the working directory,
named for the last part of the stack's name. -/
theorem save_writes_one (f : Files) (name part : Text) (s : StackSettings)
    (h : LastPart name part) :
    ∃ e ∈ [".yaml".toList, ".yml".toList, ".json".toList],
      (∀ g, g ≠ "Pulumi.".toList ++ part ++ e → (saveStackSettings f name s).1 g = f g)
      ∧ '/' ∉ "Pulumi.".toList ++ part ++ e := by
  rw [← stackBase_last name part h]
  exact ⟨foundExt f (stackBase name), ext_mem' f name,
    fun g hg => save_other f name s g hg, base_no_slash f name part h⟩

/-- C93: saving the settings of a stack changes neither those of a stack whose name
ends in another part, nor those of the project. -/
theorem stacks_independent (f : Files) (a b : Text) (pa pb : Text) (s : StackSettings)
    (ha : LastPart a pa) (hb : LastPart b pb) (hne : pa ≠ pb) :
    loadStackSettings (saveStackSettings f a s).1 b = loadStackSettings f b
    ∧ loadProjectSettings (saveStackSettings f a s).1 = loadProjectSettings f := by
  constructor
  · unfold loadStackSettings
    have : firstFile (saveStackSettings f a s).1 (stackBase b) = firstFile f (stackBase b) := by
      apply firstFile_write _ _ _ _ _ (ext_mem _ _)
      intro h
      have := List.append_cancel_left h
      rw [settingsName_last a pa ha, settingsName_last b pb hb] at this
      exact hne this
    rw [this]
  · unfold loadProjectSettings
    have : firstFile (saveStackSettings f a s).1 projectBase = firstFile f projectBase :=
      firstFile_write _ _ _ _ _ (ext_mem _ _) (Ne.symm (project_ne_stack a))
    rw [this]

/-- C93: saving the settings of the project does not change those of any stack. -/
theorem project_independent (f : Files) (p : ProjectSettings) (name : Text) :
    loadStackSettings (saveProjectSettings f p).1 name = loadStackSettings f name := by
  unfold loadStackSettings
  have : firstFile (saveProjectSettings f p).1 (stackBase name) = firstFile f (stackBase name) :=
    firstFile_write _ _ _ _ _ (ext_mem _ _) (project_ne_stack name)
  rw [this]

/-- C93: stacks whose names end in the same part have the same settings. -/
theorem settings_shared (f : Files) (a b part : Text) (ha : LastPart a part) (hb : LastPart b part) :
    loadStackSettings f a = loadStackSettings f b := by
  unfold loadStackSettings stackBase
  rw [settingsName_last a part ha, settingsName_last b part hb]

/-- C93: every name has one last part. -/
theorem last_part_unique (name : Text) : ∃ part, LastPart name part ∧
    ∀ p, LastPart name p → p = part :=
  ⟨_, lastPart_exists name, fun _ h => (settingsName_last name _ h).symm⟩

example : LastPart "acme/app/dev".toList "dev".toList ∧ LastPart "dev".toList "dev".toList
    ∧ LastPart "other/prod".toList "prod".toList ∧ "dev".toList ≠ "prod".toList :=
  ⟨⟨Or.inr ⟨"acme/app".toList, by decide⟩, by decide⟩, ⟨Or.inl rfl, by decide⟩,
    ⟨Or.inr ⟨"other".toList, by decide⟩, by decide⟩, by decide⟩

/-! ## C94: settings of a project that were saved are read back -/

/-- C94 (partial): settings of a project without instances of the SDK's classes are
read back as they were saved.  Missing: `ProjectRuntimeInfo`, `ProjectTemplate` and
`ProjectBackend` in them. -/
theorem project_settings_round_partial (f : Files) (kw : List (Text × D)) (p : ProjectSettings)
    (hp : construct kw = .ok p) (hn : p.get "name" ≠ .null) (hr : p.get "runtime" ≠ .null)
    (ho : hasObjEntries p.fields = false) :
    (saveProjectSettings f p).2 = none
    ∧ loadProjectSettings (saveProjectSettings f p).1 = .ok p := by
  obtain ⟨hb, hf⟩ := construct_ok kw p hp
  obtain ⟨fields⟩ := p
  simp only at hf ho
  subst hf
  rw [get_project _ _ (by decide)] at hn hr
  exact load_saved_project f (fun k => get k kw) hn hr hb ho

/-- A project with a backend given as a mapping. -/
def sampleProject : List (Text × D) :=
  [("name".toList, .str "app".toList), ("runtime".toList, .str "go".toList),
    ("description".toList, .str []), ("backend".toList, .dict [("url".toList, .str "file://~".toList)])]

example : ∃ p, construct sampleProject = .ok p ∧ p.get "name" ≠ .null ∧ p.get "runtime" ≠ .null
    ∧ hasObjEntries p.fields = false := by
  refine ⟨_, rfl, ?_, ?_, by decide⟩
  · intro h
    exact D.noConfusion (show D.str "app".toList = .null from h)
  · intro h
    exact D.noConfusion (show D.str "go".toList = .null from h)

/-- C94 fails: settings with an instance of the SDK's own classes are not read back:
whatever settings files there are, reading the project's settings raises from then
on. -/
theorem object_makes_unreadable (f : Files) (p : ProjectSettings)
    (ho : hasObjEntries p.fields = true) :
    loadProjectSettings (saveProjectSettings f p).1 = .error .unreadable := by
  unfold loadProjectSettings
  have h1 : firstFile (saveProjectSettings f p).1 projectBase
      = some (dump (foundExt f projectBase) (.dict (p.fields.filter fun e => notNone e.2))).1 :=
    firstFile_written _ _ _
  rw [h1]
  have h2 : load (dump (foundExt f projectBase) (.dict (p.fields.filter fun e => notNone e.2))).1
      = .error .unreadable := by
    unfold dump
    split
    · rfl
    · simp only [load, D.hasObj, hasObj_filter, ho, if_true]
  simp only [h2, Except.bind]

/-- C94 fails: in a directory with `Pulumi.json`, saving such settings raises, and
the settings that were there are lost. -/
theorem object_destroys_json (f : Files) (p q : ProjectSettings)
    (hy : f (projectBase ++ ".yaml".toList) = none) (hm : f (projectBase ++ ".yml".toList) = none)
    (hq : loadProjectSettings f = .ok q) (ho : hasObjEntries p.fields = true) :
    (saveProjectSettings f p).2 = some .typeError
    ∧ loadProjectSettings (saveProjectSettings f p).1 = .error .unreadable := by
  refine ⟨?_, object_makes_unreadable f p ho⟩
  have hj : (f (projectBase ++ ".json".toList)).isSome = true := by
    cases hj : f (projectBase ++ ".json".toList) with
    | some c => rfl
    | none =>
      unfold loadProjectSettings at hq
      have : firstFile f projectBase = none := by
        unfold firstFile extensions
        simp only [List.find?_cons, hy, hm, hj, Option.isSome_none, List.find?_nil,
          Option.bind_none]
      rw [this] at hq
      simp at hq
  have he : foundExt f projectBase = ".json".toList := by
    unfold foundExt extensions
    simp only [List.find?_cons, hy, hm, hj, Option.isSome_none, Option.getD_some]
  show (dump (foundExt f projectBase) (.dict (p.fields.filter fun e => notNone e.2))).2 = _
  unfold dump
  rw [if_pos ⟨he, by simp only [D.hasObj, hasObj_filter, ho]⟩]

/-- A project whose runtime is a `ProjectRuntimeInfo`. -/
example : ∃ p, construct [("name".toList, .str "app".toList),
      ("runtime".toList, .obj [("name".toList, .str "python".toList)])] = .ok p
    ∧ hasObjEntries p.fields = true :=
  ⟨_, rfl, by decide⟩

/-- C94 fails: the settings of a project with a runtime or a key that the CLI knows
and the SDK does not are not read. -/
theorem cli_project_unreadable (name : Text) :
    constructFrom (.dict [("name".toList, .str name), ("runtime".toList, .str "java".toList)])
      = .error .valueError
    ∧ constructFrom (.dict [("name".toList, .str name), ("runtime".toList, .str "python".toList),
      ("stackConfigDir".toList, .str "config".toList)]) = .error .typeError := ⟨rfl, rfl⟩

/-! ## C95: the project and the program of a stack -/

/-- C95: a stack with an inline program, with options without project settings and
in a directory without them, gets a project with the name given; its workspace has
the program given, and no other directory is touched. -/
theorem inline_project (disk : Disk) (fresh : Nat) (cwd project : Text) (program : Nat)
    (workDir : Option Nat) (o : Options) (w : Workspace) (ho : o.project = none)
    (hd : loadProjectSettings (disk (o.workDir.getD fresh)) = .error .fileNotFound)
    (hw : (stackWorkspace disk fresh cwd (some project) (some program) workDir o).2.2 = .ok w) :
    w.dir = o.workDir.getD fresh ∧ w.program = some program
    ∧ (∀ d, d ≠ w.dir →
        (stackWorkspace disk fresh cwd (some project) (some program) workDir o).1 d = disk d)
    ∧ ∃ p, loadProjectSettings
        ((stackWorkspace disk fresh cwd (some project) (some program) workDir o).1 w.dir) = .ok p
      ∧ p.get "name" = .str project ∧ p.get "runtime" = .str "python".toList
      ∧ p.get "main" = .str cwd := by
  have hi : inlineOptions disk cwd program project o
      = .ok { o with program := some program, project := some (defaultProject cwd project) } := by
    unfold inlineOptions
    simp only [ho]
    cases hwd : o.workDir with
    | none => rfl
    | some d =>
      rw [hwd] at hd
      simp only [Option.getD_some] at hd
      simp only [hd]
  simp only [stackWorkspace, hi] at hw ⊢
  obtain ⟨h1, h2, h3, -, h5⟩ := makeWorkspace_ok _ _ _ _ hw
  refine ⟨h1, h2, h3, defaultProject cwd project, ?_, ?_, ?_, ?_⟩
  · rw [h5 _ rfl, default_saved]
  · rw [default_get _ _ _ (by decide), default_name]
  · rw [default_get _ _ _ (by decide), default_runtime]
  · rw [default_get _ _ _ (by decide), default_main]

/-- An empty disk, options with settings for a stack. -/
example : (stackWorkspace (fun _ _ => none) 7 "/home".toList (some "app".toList) (some 3) none
      { stacks := [("dev".toList, sampleSettings)] }).2.2 = .ok ⟨7, some 3⟩
    ∧ loadProjectSettings (fun _ => none) = .error .fileNotFound := ⟨rfl, rfl⟩

/-- C95: a stack with an inline program in a directory with project settings keeps
them. -/
theorem inline_project_kept (disk : Disk) (fresh dir : Nat) (cwd project : Text) (program : Nat)
    (workDir : Option Nat) (o : Options) (w : Workspace) (p : ProjectSettings)
    (ho : o.project = none) (hdir : o.workDir = some dir)
    (hd : loadProjectSettings (disk dir) = .ok p)
    (hw : (stackWorkspace disk fresh cwd (some project) (some program) workDir o).2.2 = .ok w) :
    w.dir = dir ∧ w.program = some program
    ∧ loadProjectSettings
      ((stackWorkspace disk fresh cwd (some project) (some program) workDir o).1 dir) = .ok p := by
  have hi : inlineOptions disk cwd program project o
      = .ok { o with program := some program } := by
    unfold inlineOptions
    simp only [ho, hdir, hd]
  simp only [stackWorkspace, hi] at hw ⊢
  obtain ⟨h1, h2, -, h4, -⟩ := makeWorkspace_ok _ _ _ _ hw
  have hwd : w.dir = dir := by rw [h1]; simp [hdir]
  refine ⟨hwd, h2, ?_⟩
  rw [← hwd, h4 ho, hwd, hd]

/-- C95: a stack with an inline program gets the project settings of the options. -/
theorem inline_project_given (disk : Disk) (fresh : Nat) (cwd project : Text) (program : Nat)
    (workDir : Option Nat) (o : Options) (w : Workspace) (kw : List (Text × D))
    (p : ProjectSettings) (hp : construct kw = .ok p) (hn : p.get "name" ≠ .null)
    (hr : p.get "runtime" ≠ .null) (hob : hasObjEntries p.fields = false) (ho : o.project = some p)
    (hw : (stackWorkspace disk fresh cwd (some project) (some program) workDir o).2.2 = .ok w) :
    w.dir = o.workDir.getD fresh ∧ w.program = some program
    ∧ loadProjectSettings
      ((stackWorkspace disk fresh cwd (some project) (some program) workDir o).1 w.dir) = .ok p := by
  have hi : inlineOptions disk cwd program project o = .ok { o with program := some program } := by
    unfold inlineOptions
    simp only [ho]
  simp only [stackWorkspace, hi] at hw ⊢
  obtain ⟨h1, h2, -, -, h5⟩ := makeWorkspace_ok _ _ _ _ hw
  refine ⟨h1, h2, ?_⟩
  rw [h5 p ho]
  exact (project_settings_round_partial _ kw p hp hn hr hob).2

/-- C95: a stack with a local program is in the directory given and, with options
without project settings, leaves the project's settings as they are. -/
theorem local_project (disk : Disk) (fresh dir : Nat) (cwd : Text) (o : Options) (w : Workspace)
    (ho : o.project = none)
    (hw : (stackWorkspace disk fresh cwd none none (some dir) o).2.2 = .ok w) :
    w.dir = dir ∧ w.program = o.program
    ∧ loadProjectSettings ((stackWorkspace disk fresh cwd none none (some dir) o).1 dir)
      = loadProjectSettings (disk dir) := by
  simp only [stackWorkspace] at hw ⊢
  obtain ⟨h1, h2, -, h4, -⟩ := makeWorkspace_ok _ _ _ _ hw
  have hwd : w.dir = dir := h1
  refine ⟨hwd, h2, ?_⟩
  have h6 := h4 ho
  rwa [hwd] at h6

/-- C95: without a program and a directory, the call raises and does nothing. -/
theorem no_source_raises (disk : Disk) (fresh : Nat) (cwd : Text) (project : Option Text)
    (program : Option Nat) (h : project = none ∨ program = none) (o : Options) :
    stackWorkspace disk fresh cwd project program none o = (disk, o, .error .valueError) := by
  rcases h with rfl | rfl
  · cases program <;> rfl
  · rfl

/-- What the options are after an inline stack without project settings. -/
theorem inline_leaves (disk : Disk) (fresh : Nat) (cwd project : Text) (program : Nat)
    (workDir : Option Nat) (o : Options) (ho : o.project = none)
    (hd : loadProjectSettings (disk (o.workDir.getD fresh)) = .error .fileNotFound) :
    (stackWorkspace disk fresh cwd (some project) (some program) workDir o).2.1
      = { o with program := some program, project := some (defaultProject cwd project) } := by
  have hi : inlineOptions disk cwd program project o
      = .ok { o with program := some program, project := some (defaultProject cwd project) } := by
    unfold inlineOptions
    simp only [ho]
    cases hwd : o.workDir with
    | none => rfl
    | some d =>
      rw [hwd] at hd
      simp only [Option.getD_some] at hd
      simp only [hd]
  simp only [stackWorkspace, hi]

/-- C95 fails: when the caller uses the same options for a second inline stack, of
another project, that stack gets the first one's project. -/
theorem reused_options_keep_project (disk disk' : Disk) (fresh fresh' : Nat)
    (cwd first second : Text) (program program' : Nat) (workDir : Option Nat) (o : Options)
    (w : Workspace) (ho : o.project = none)
    (hd : loadProjectSettings (disk (o.workDir.getD fresh)) = .error .fileNotFound)
    (hw : (stackWorkspace disk' fresh' cwd (some second) (some program') workDir
      (stackWorkspace disk fresh cwd (some first) (some program) workDir o).2.1).2.2 = .ok w) :
    ∃ p, loadProjectSettings
        ((stackWorkspace disk' fresh' cwd (some second) (some program') workDir
          (stackWorkspace disk fresh cwd (some first) (some program) workDir o).2.1).1 w.dir) = .ok p
      ∧ p.get "name" = .str first := by
  rw [inline_leaves disk fresh cwd first program workDir o ho hd] at hw ⊢
  simp only [stackWorkspace, inlineOptions] at hw ⊢
  obtain ⟨-, -, -, -, h5⟩ := makeWorkspace_ok _ _ _ _ hw
  refine ⟨defaultProject cwd first, ?_, ?_⟩
  · rw [h5 _ rfl, default_saved]
  · rw [default_get _ _ _ (by decide), default_name]

/-- C95 fails: when the caller then uses the same options for a stack with a local
program, the local project's settings are overwritten with those of the inline
one, and the workspace runs the inline program. -/
theorem reused_options_overwrite_local (disk disk' : Disk) (fresh fresh' dir : Nat)
    (cwd first : Text) (program : Nat) (workDir : Option Nat) (o : Options) (w : Workspace)
    (ho : o.project = none)
    (hd : loadProjectSettings (disk (o.workDir.getD fresh)) = .error .fileNotFound)
    (hw : (stackWorkspace disk' fresh' cwd none none (some dir)
      (stackWorkspace disk fresh cwd (some first) (some program) workDir o).2.1).2.2 = .ok w) :
    w.program = some program
    ∧ ∃ p, loadProjectSettings
        ((stackWorkspace disk' fresh' cwd none none (some dir)
          (stackWorkspace disk fresh cwd (some first) (some program) workDir o).2.1).1 dir) = .ok p
      ∧ p.get "name" = .str first := by
  rw [inline_leaves disk fresh cwd first program workDir o ho hd] at hw ⊢
  simp only [stackWorkspace] at hw ⊢
  obtain ⟨h1, h2, -, -, h5⟩ := makeWorkspace_ok _ _ _ _ hw
  have hwd : w.dir = dir := h1
  refine ⟨h2, defaultProject cwd first, ?_, ?_⟩
  · have h6 := h5 _ rfl
    rw [hwd] at h6
    rw [h6, default_saved]
  · rw [default_get _ _ _ (by decide), default_name]

/-- Two calls with the same options. -/
example : (stackWorkspace (fun _ _ => none) 8 "/home".toList (some "two".toList) (some 4) none
      (stackWorkspace (fun _ _ => none) 7 "/home".toList (some "one".toList) (some 3) none {}).2.1).2.2
    = .ok ⟨8, some 4⟩ := rfl

example : (stackWorkspace (fun _ _ => none) 8 "/home".toList none none (some 5)
      (stackWorkspace (fun _ _ => none) 7 "/home".toList (some "one".toList) (some 3) none {}).2.1).2.2
    = .ok ⟨5, some 3⟩ := rfl

end Pulumi.Local
