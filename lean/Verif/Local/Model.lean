import Verif.Cli.Model

/-!
# Settings files and workspaces of the automation API

Models `automation/_stack_settings.py`, `automation/_project_settings.py` and the
parts of `automation/_local_workspace.py` and `automation/_stack.py` that read and
write settings files, make workspaces and read the lists that the CLI prints.

Simplified: reading back a file that `yaml.dump` or `json.dump` wrote gives the
data that was written, so a file is its data; floats, dates and mapping keys that
are not texts are left out.
-/

namespace Pulumi.Local

open Pulumi.Cli (Text Arg lit)

/-- Data of a settings file, and instances of the SDK's classes in it (`obj`), which
`yaml.dump` writes with a Python tag and `json.dump` does not write. -/
inductive D
  | null
  | bool (b : Bool)
  | int (n : Int)
  | str (t : Text)
  | list (l : List D)
  | dict (l : List (Text × D))
  | obj (l : List (Text × D))

inductive Err
  | typeError | attributeError | valueError | keyError | fileNotFound
  /-- what `yaml.safe_load` or `json.load` raise -/
  | unreadable
  deriving DecidableEq, Repr

/-- `data.get(key)`: `None` without the key. -/
def get (key : Text) : List (Text × D) → D
  | [] => .null
  | (k, v) :: r => if k = key then v else get key r

/-- `key in data`. -/
def hasKey (key : Text) (l : List (Text × D)) : Bool := l.any (·.1 = key)

/-- Python's `bool(x)`.  An instance of a class without `__bool__` is true. -/
def truthy : D → Bool
  | .null => false
  | .bool b => b
  | .int n => n != 0
  | .str t => !t.isEmpty
  | .list l => !l.isEmpty
  | .dict l => !l.isEmpty
  | .obj _ => true

/-! ## _stack_settings.py -/

/-- A value of `StackSettings.config`: a `StackSettingsSecureConfigValue`
(_stack_settings.py:18-24) or anything else. -/
inductive Val
  | secure (d : D)
  | plain (d : D)

/-- `StackSettings` (_stack_settings.py:27-46); `null` is `None`. -/
structure StackSettings where
  secretsProvider : D
  encryptedKey : D
  encryptionSalt : D
  config : Option (List (Text × Val))

/-- `"secure" in val` finds a text in a list. -/
def isSecureText : D → Bool
  | .str t => t = "secure".toList
  | _ => false

/-- _stack_settings.py:53-57: what one entry of the file's config becomes, or
`none` for an entry that is left out. -/
def readEntry : D → Except Err (Option Val)
  | .str t => .ok (some (.plain (.str t)))
  | .dict l =>
    if hasKey "secure".toList l then
      match l with
      | [(_, d)] => .ok (some (.secure d))
      | _ => .error .typeError
    else .ok none
  | .list l => if l.any isSecureText then .error .typeError else .ok none
  | .null | .bool _ | .int _ | .obj _ => .error .typeError

/-- The loop of _stack_settings.py:53-57. -/
def readEntries : List (Text × D) → Except Err (List (Text × Val))
  | [] => .ok []
  | (k, d) :: r =>
    match readEntry d, readEntries r with
    | .error e, _ => .error e
    | .ok _, .error e => .error e
    | .ok none, .ok vs => .ok vs
    | .ok (some v), .ok vs => .ok ((k, v) :: vs)

/-- `config` in _stack_settings.py:50-58. -/
def readConfig : D → Except Err (Option (List (Text × Val)))
  | .null => .ok none
  | .dict c => (readEntries c).map some
  | _ => .error .attributeError

/-- `StackSettings._deserialize` (_stack_settings.py:48-64). -/
def deserialize : D → Except Err StackSettings
  | .dict l =>
    (readConfig (get "config".toList l)).map fun c =>
      { secretsProvider := get "secretsprovider".toList l
        encryptedKey := get "encryptedkey".toList l
        encryptionSalt := get "encryptionsalt".toList l
        config := c }
  | _ => .error .attributeError

/-- _stack_settings.py:80-83. -/
def writeEntry : Text × Val → Text × D
  | (k, .secure d) => (k, .dict [("secure".toList, d)])
  | (k, .plain d) => (k, d)

/-- `if self.x: serializable[key] = self.x`. -/
def writeField (key : String) (d : D) : List (Text × D) :=
  if truthy d then [(key.toList, d)] else []

/-- _stack_settings.py:77-84. -/
def writeConfig : Option (List (Text × Val)) → List (Text × D)
  | none => []
  | some [] => []
  | some c => [("config".toList, .dict (c.map writeEntry))]

/-- `StackSettings._serialize` (_stack_settings.py:66-85). -/
def serialize (s : StackSettings) : D :=
  .dict (writeField "secretsprovider" s.secretsProvider
    ++ writeField "encryptedkey" s.encryptedKey
    ++ writeField "encryptionsalt" s.encryptionSalt
    ++ writeConfig s.config)

/-! ## Files -/

mutual
/-- There is an instance of a class in the data. -/
def D.hasObj : D → Bool
  | .null | .bool _ | .int _ | .str _ => false
  | .list l => hasObjs l
  | .dict l => hasObjEntries l
  | .obj _ => true
def hasObjs : List D → Bool
  | [] => false
  | d :: r => d.hasObj || hasObjs r
def hasObjEntries : List (Text × D) → Bool
  | [] => false
  | (_, d) :: r => d.hasObj || hasObjEntries r
end

/-- A file: the data that was written, or what a `json.dump` that raised left. -/
inductive Content
  | data (d : D)
  | torn

/-- The files of the working directory by name. -/
abbrev Files := Text → Option Content

def Files.write (f : Files) (name : Text) (c : Content) : Files :=
  fun n => if n = name then some c else f n

/-- `_setting_extensions` (_local_workspace.py:40). -/
def extensions : List Text := [".yaml".toList, ".yml".toList, ".json".toList]

/-- `yaml.dump` or `json.dump` into a file opened for writing
(_local_workspace.py:154-158, 185-189). -/
def dump (ext : Text) (d : D) : Content × Option Err :=
  if ext = ".json".toList ∧ d.hasObj then (.torn, some .typeError) else (.data d, none)

/-- `json.load` or `yaml.safe_load` (_local_workspace.py:166-168, 646-647).
`safe_load` refuses the tags of Python objects. -/
def load : Content → Except Err D
  | .torn => .error .unreadable
  | .data d => if d.hasObj then .error .unreadable else .ok d

/-- The extension under which settings are written: that of the first file there
is, else `.yaml` (_local_workspace.py:142-147, 175-183). -/
def foundExt (f : Files) (base : Text) : Text :=
  (extensions.find? fun e => (f (base ++ e)).isSome).getD ".yaml".toList

/-- The first settings file there is (_local_workspace.py:162-171, 642-651). -/
def firstFile (f : Files) (base : Text) : Option Content :=
  (extensions.find? fun e => (f (base ++ e)).isSome).bind fun e => f (base ++ e)

/-- `name.split("/")`. -/
def parts : Text → List Text
  | [] => [[]]
  | c :: r =>
    if c = '/' then [] :: parts r
    else
      match parts r with
      | [] => [[c]]
      | t :: ts => (c :: t) :: ts

/-- `get_stack_settings_name` (_local_workspace.py:601-605). -/
def settingsName (name : Text) : Text := (parts name).getLast?.getD name

/-- `f"Pulumi.{stack_settings_name}"`. -/
def stackBase (name : Text) : Text := "Pulumi.".toList ++ settingsName name

def projectBase : Text := "Pulumi".toList

/-- `LocalWorkspace.save_stack_settings` (_local_workspace.py:173-189). -/
def saveStackSettings (f : Files) (name : Text) (s : StackSettings) : Files × Option Err :=
  let ext := foundExt f (stackBase name)
  let r := dump ext (serialize s)
  (f.write (stackBase name ++ ext) r.1, r.2)

/-- `LocalWorkspace.stack_settings` (_local_workspace.py:160-171). -/
def loadStackSettings (f : Files) (name : Text) : Except Err StackSettings :=
  match firstFile f (stackBase name) with
  | none => .error .fileNotFound
  | some c => (load c).bind deserialize

/-! ## _project_settings.py -/

/-- The parameters of `ProjectSettings.__init__` (_project_settings.py:91-103), in
the order of its `__dict__`. -/
def projectKeys : List Text :=
  ["name", "runtime", "main", "description", "author", "website", "license", "config",
    "template", "backend"].map String.toList

def runtimes : List Text := ["nodejs", "python", "go", "dotnet"].map String.toList

/-- `ProjectSettings` (_project_settings.py:77-123): its `__dict__`, `null` for
`None`. -/
structure ProjectSettings where
  fields : List (Text × D)

/-- The check of _project_settings.py:104-113. -/
def badRuntime : D → Bool
  | .str t => !(runtimes.contains t)
  | _ => false

/-- `ProjectSettings(**kwargs)`. -/
def construct (kwargs : List (Text × D)) : Except Err ProjectSettings :=
  if kwargs.any fun e => !(projectKeys.contains e.1) then .error .typeError
  else if !hasKey "name".toList kwargs || !hasKey "runtime".toList kwargs then .error .typeError
  else if badRuntime (get "runtime".toList kwargs) then .error .valueError
  else .ok ⟨projectKeys.map fun k => (k, get k kwargs)⟩

def notNone : D → Bool
  | .null => false
  | _ => true

/-- `LocalWorkspace.save_project_settings` (_local_workspace.py:141-158). -/
def saveProjectSettings (f : Files) (p : ProjectSettings) : Files × Option Err :=
  let ext := foundExt f projectBase
  let r := dump ext (.dict (p.fields.filter fun e => notNone e.2))
  (f.write (projectBase ++ ext) r.1, r.2)

/-- `ProjectSettings(**settings)` with what was loaded. -/
def constructFrom : D → Except Err ProjectSettings
  | .dict l => construct l
  | _ => .error .typeError

/-- `_load_project_settings` (_local_workspace.py:641-651). -/
def loadProjectSettings (f : Files) : Except Err ProjectSettings :=
  match firstFile f projectBase with
  | none => .error .fileNotFound
  | some c => (load c).bind constructFrom

/-! ## Making a workspace -/

/-- `LocalWorkspaceOptions` (_local_workspace.py:45-70), the fields that matter
here.  Directories and programs are numbers. -/
structure Options where
  workDir : Option Nat := none
  program : Option Nat := none
  project : Option ProjectSettings := none
  stacks : List (Text × StackSettings) := []

/-- The files of every directory. -/
abbrev Disk := Nat → Files

/-- A `LocalWorkspace`. -/
structure Workspace where
  dir : Nat
  program : Option Nat
  deriving DecidableEq, Repr

def Disk.set (d : Disk) (dir : Nat) (f : Files) : Disk := fun n => if n = dir then f else d n

/-- The loop of _local_workspace.py:114-116; it ends at the first error. -/
def saveStacks (f : Files) : List (Text × StackSettings) → Files × Option Err
  | [] => (f, none)
  | (n, s) :: r =>
    match saveStackSettings f n s with
    | (f', none) => saveStacks f' r
    | (f', some e) => (f', some e)

/-- `LocalWorkspace.__init__` (_local_workspace.py:86-116) after the version check;
`fresh` is the directory that `mkdtemp` makes. -/
def makeWorkspace (disk : Disk) (fresh : Nat) (o : Options) : Disk × Except Err Workspace :=
  let dir := o.workDir.getD fresh
  let p := match o.project with
    | none => (disk dir, none)
    | some p => saveProjectSettings (disk dir) p
  match p with
  | (f, some e) => (disk.set dir f, .error e)
  | (f, none) =>
    match saveStacks f o.stacks with
    | (f', some e) => (disk.set dir f', .error e)
    | (f', none) => (disk.set dir f', .ok ⟨dir, o.program⟩)

/-- `default_project` (_local_workspace.py:597-598) in a process whose current
directory is `cwd`. -/
def defaultProject (cwd project : Text) : ProjectSettings :=
  ⟨projectKeys.map fun k => (k, get k [("name".toList, .str project),
    ("runtime".toList, .str "python".toList), ("main".toList, .str cwd)])⟩

/-- The options that `_inline_source_stack_helper` (_local_workspace.py:556-577)
leaves in the caller's object and makes the workspace with. -/
def inlineOptions (disk : Disk) (cwd : Text) (program : Nat) (project : Text) (o : Options) :
    Except Err Options :=
  let o := { o with program := some program }
  match o.project, o.workDir with
  | some _, _ => .ok o
  | none, none => .ok { o with project := some (defaultProject cwd project) }
  | none, some dir =>
    match loadProjectSettings (disk dir) with
    | .ok _ => .ok o
    | .error .fileNotFound => .ok { o with project := some (defaultProject cwd project) }
    | .error e => .error e

/-- `create_stack`, `select_stack` and `create_or_select_stack`
(_local_workspace.py:386-390, 440-447, 556-594) up to the call of `Stack`'s own function: the disk,
the caller's options afterwards, and the workspace. -/
def stackWorkspace (disk : Disk) (fresh : Nat) (cwd : Text) (project : Option Text)
    (program : Option Nat) (workDir : Option Nat) (o : Options) :
    Disk × Options × Except Err Workspace :=
  match program, project, workDir with
  | some pr, some n, _ =>
    match inlineOptions disk cwd pr n o with
    | .error e => (disk, { o with program := some pr }, .error e)
    | .ok o' => ((makeWorkspace disk fresh o').1, o', (makeWorkspace disk fresh o').2)
  | _, _, some dir =>
    let o' := { o with workDir := some dir }
    ((makeWorkspace disk fresh o').1, o', (makeWorkspace disk fresh o').2)
  | _, _, none => (disk, o, .error .valueError)

/-! ## Lists that the CLI prints -/

/-- `data[key]`. -/
def need (key : String) (l : List (Text × D)) : Except Err D :=
  if hasKey key.toList l then .ok (get key.toList l) else .error .keyError

/-- `data[key] if key in data else None`. -/
def maybe (key : String) (l : List (Text × D)) : D := get key.toList l

/-- `ConfigValue` (_config.py). -/
structure ConfigValue where
  value : D
  secret : D

/-- `ConfigValue(value=v["value"], secret=v["secret"])` (_stack.py:80-83,
_local_workspace.py:212-214). -/
def configValue : D → Except Err ConfigValue
  | .dict l =>
    match need "value" l with
    | .error e => .error e
    | .ok v => (need "secret" l).map fun s => ⟨v, s⟩
  | _ => .error .typeError

/-- The loop over a config (_stack.py:78-83, _local_workspace.py:209-215). -/
def configValues : List (Text × D) → Except Err (List (Text × ConfigValue))
  | [] => .ok []
  | (k, d) :: r =>
    match configValue d with
    | .error e => .error e
    | .ok v => (configValues r).map fun vs => (k, v) :: vs

/-- `for key in config`. -/
def configOf : D → Except Err (List (Text × ConfigValue))
  | .dict l => configValues l
  | _ => .error .typeError

/-- `datetime.strptime(text, _DATETIME_FORMAT)`. -/
def strptime {T : Type} (time : Text → Option T) : D → Except Err T
  | .str t => match time t with
    | some x => .ok x
    | none => .error .valueError
  | _ => .error .typeError

/-- `UpdateSummary` (_stack.py:54-83). -/
structure Summary (T : Type) where
  kind : D
  startTime : T
  message : D
  environment : D
  config : List (Text × ConfigValue)
  result : D
  endTime : T
  version : D
  resourceChanges : D

/-- One entry of `Stack.history` (_stack.py:652-671). -/
def summary {T : Type} (time : Text → Option T) : D → Except Err (Summary T)
  | .dict l => do
    let kind ← need "kind" l
    let st ← need "startTime" l
    let startTime ← strptime time st
    let message ← need "message" l
    let environment ← need "environment" l
    let config ← need "config" l
    let result ← need "result" l
    let et ← need "endTime" l
    let endTime ← strptime time et
    let c ← configOf config
    pure { kind, startTime, message, environment, config := c, result, endTime,
           version := maybe "version" l, resourceChanges := maybe "resourceChanges" l }
  | _ => .error .typeError

/-- The loop of `Stack.history` (_stack.py:651-672). -/
def summaries {T : Type} (time : Text → Option T) : List D → Except Err (List (Summary T))
  | [] => .ok []
  | d :: r =>
    match summary time d with
    | .error e => .error e
    | .ok s => (summaries time r).map (s :: ·)

/-- `StackSummary` (_workspace.py:27-51). -/
structure StackSummary (T : Type) where
  name : D
  current : D
  updateInProgress : D
  lastUpdate : Option T
  resourceCount : D
  url : D

/-- `strptime` of a key that may be missing. -/
def maybeTime {T : Type} (time : Text → Option T) (key : String) (l : List (Text × D)) :
    Except Err (Option T) :=
  if hasKey key.toList l then (strptime time (get key.toList l)).map some else .ok none

/-- One entry of `list_stacks` (_local_workspace.py:284-298). -/
def stackSummary {T : Type} (time : Text → Option T) : D → Except Err (StackSummary T)
  | .dict l => do
    let name ← need "name" l
    let current ← need "current" l
    let inProgress ← need "updateInProgress" l
    let lastUpdate ← maybeTime time "lastUpdate" l
    pure { name, current, updateInProgress := inProgress, lastUpdate,
           resourceCount := maybe "resourceCount" l, url := maybe "url" l }
  | _ => .error .typeError

/-- The loop of `list_stacks` (_local_workspace.py:280-300). -/
def stackSummaries {T : Type} (time : Text → Option T) : List D → Except Err (List (StackSummary T))
  | [] => .ok []
  | d :: r =>
    match stackSummary time d with
    | .error e => .error e
    | .ok s => (stackSummaries time r).map (s :: ·)

/-- `LocalWorkspace.stack` (_local_workspace.py:261-266). -/
def currentStack {T : Type} (time : Text → Option T) (l : List D) :
    Except Err (Option (StackSummary T)) :=
  (stackSummaries time l).map fun ss => ss.find? fun s => truthy s.current

/-- `PluginInfo` (_workspace.py:63-85). -/
structure PluginInfo (T : Type) where
  name : D
  kind : D
  size : D
  lastUsed : T
  installed : Option T
  version : D

/-- One entry of `list_plugins` (_local_workspace.py:324-338). -/
def pluginInfo {T : Type} (time : Text → Option T) : D → Except Err (PluginInfo T)
  | .dict l => do
    let name ← need "name" l
    let kind ← need "kind" l
    let size ← need "size" l
    let lu ← need "lastUsedTime" l
    let lastUsed ← strptime time lu
    let installed ← maybeTime time "installTime" l
    pure { name, kind, size, lastUsed, installed, version := maybe "version" l }
  | _ => .error .typeError

/-- The loop of `list_plugins` (_local_workspace.py:319-340). -/
def pluginInfos {T : Type} (time : Text → Option T) : List D → Except Err (List (PluginInfo T))
  | [] => .ok []
  | d :: r =>
    match pluginInfo time d with
    | .error e => .error e
    | .ok s => (pluginInfos time r).map (s :: ·)

/-! ## Plugin commands -/

/-- `install_plugin` (_local_workspace.py:302-303). -/
def installPluginArgs (kind name version : Text) : List Arg :=
  [lit "plugin", lit "install", .s kind, .s name, .s version]

/-- `if x: args.append(x)`. -/
def appendIf (t : Option Text) : List Arg :=
  match t with
  | some [] => []
  | some t => [.s t]
  | none => []

/-- `remove_plugin` (_local_workspace.py:305-317). -/
def removePluginArgs (kind : Text) (name version : Option Text) : List Arg :=
  [lit "plugin", lit "rm", .s kind] ++ appendIf name ++ appendIf version ++ [lit "--yes"]

end Pulumi.Local
