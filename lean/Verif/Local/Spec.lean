import Verif.Local.Model
import Verif.Cli.Spec

/-!
# What settings files, workspaces and lists are to be
-/

namespace Pulumi.Local

open Pulumi.Cli (Text Arg lit)

/-! ## Names -/

/-- `part` is the text after the last slash of `name`. -/
def LastPart (name part : Text) : Prop :=
  (name = part ∨ ∃ p, name = p ++ '/' :: part) ∧ '/' ∉ part

/-! ## Stack settings -/

/-- `None` or a text. -/
inductive TextOrNone : D → Prop
  | none : TextOrNone .null
  | text (t : Text) : TextOrNone (.str t)

/-- A plain text or a secure one. -/
inductive TextVal : Val → Prop
  | plain (t : Text) : TextVal (.plain (.str t))
  | secure (t : Text) : TextVal (.secure (.str t))

/-- Settings whose values are texts. -/
structure Texts (s : StackSettings) : Prop where
  provider : TextOrNone s.secretsProvider
  key : TextOrNone s.encryptedKey
  salt : TextOrNone s.encryptionSalt
  config : ∀ e ∈ s.config.getD [], TextVal e.2

/-- The same value, where the empty text is `None`. -/
def SameField (a b : D) : Prop := a = b ∨ a = .str [] ∧ b = .null

/-- The same settings, where empty texts and an empty config are `None`. -/
structure Same (s t : StackSettings) : Prop where
  provider : SameField s.secretsProvider t.secretsProvider
  key : SameField s.encryptedKey t.encryptedKey
  salt : SameField s.encryptionSalt t.encryptionSalt
  config : s.config.getD [] = t.config.getD []

/-- The keys that the CLI writes to the file (sdk/go/common/workspace/project.go:200-211). -/
def stackKeys : List Text :=
  ["secretsprovider", "encryptedkey", "encryptionsalt", "config"].map String.toList

/-- A value that the SDK keeps: a text, or `{"secure": x}`. -/
inductive Kept : D → Prop
  | text (t : Text) : Kept (.str t)
  | secure (d : D) : Kept (.dict [("secure".toList, d)])

/-- A key that is missing or has a text that is not empty. -/
def AbsentOrText (d : D) : Prop := d = .null ∨ ∃ c t, d = .str (c :: t)

/-- The entries of a config that may be missing. -/
def entriesOf : D → List (Text × D)
  | .dict l => l
  | _ => []

/-! ## Project settings -/

/-- A setting of a project. -/
def ProjectSettings.get (p : ProjectSettings) (key : String) : D := Local.get key.toList p.fields

/-! ## What the CLI prints -/

/-- An update (pkg/backend/updates.go), as `pulumi stack history --json` knows it.
`finished` has the end and the changes, and is missing while the update runs. -/
structure Update (T : Type) where
  version : Int
  kind : Text
  start : T
  message : Text
  environment : List (Text × Text)
  config : List (Text × Text × Bool)
  result : Text
  finished : Option (T × List (Text × Int))

/-- config.go:736-742 and stack_history.go:123-144: a secret has no value unless
secrets are shown. -/
def configJson (showSecrets : Bool) (v : Text × Bool) : D :=
  .dict ((if v.2 && !showSecrets then [] else [("value".toList, .str v.1)])
    ++ [("secret".toList, .bool v.2)])

/-- stack_history.go:107-160 (`result` is left out by the CLI when it is empty,
which it is not). -/
def updateJson {T : Type} (format : T → Text) (showSecrets : Bool) (u : Update T) : D :=
  .dict ([("version".toList, .int u.version),
    ("kind".toList, .str u.kind),
    ("startTime".toList, .str (format u.start)),
    ("message".toList, .str u.message),
    ("environment".toList, .dict (u.environment.map fun e => (e.1, .str e.2))),
    ("config".toList, .dict (u.config.map fun e => (e.1, configJson showSecrets e.2))),
    ("result".toList, .str u.result)]
    ++ match u.finished with
      | none => []
      | some (t, ch) => [("endTime".toList, .str (format t)),
          ("resourceChanges".toList, .dict (ch.map fun e => (e.1, .int e.2)))])

/-- The summary that says the same as the update. -/
def SummaryOf {T : Type} (u : Update T) (s : Summary T) : Prop :=
  s.kind = .str u.kind ∧ s.startTime = u.start ∧ s.message = .str u.message
  ∧ s.environment = .dict (u.environment.map fun e => (e.1, .str e.2))
  ∧ s.config = u.config.map (fun e => (e.1, ⟨.str e.2.1, .bool e.2.2⟩))
  ∧ s.result = .str u.result ∧ s.version = .int u.version
  ∧ ∃ ch, u.finished = some (s.endTime, ch)
    ∧ s.resourceChanges = .dict (ch.map fun e => (e.1, .int e.2))

/-- A stack as `pulumi stack ls --json` knows it. -/
structure StackInfo (T : Type) where
  name : Text
  current : Bool
  inProgress : Bool
  lastUpdate : Option T
  resources : Option Int
  url : Text

/-- stack_ls.go:194-230. -/
def stackJson {T : Type} (format : T → Text) (i : StackInfo T) : D :=
  .dict ([("name".toList, .str i.name), ("current".toList, .bool i.current)]
    ++ (i.lastUpdate.map fun t => ("lastUpdate".toList, D.str (format t))).toList
    ++ [("updateInProgress".toList, .bool i.inProgress)]
    ++ (i.resources.map fun n => ("resourceCount".toList, D.int n)).toList
    ++ (if i.url = [] then [] else [("url".toList, .str i.url)]))

/-- The summary that says the same. -/
def stackSummaryOf {T : Type} (i : StackInfo T) : StackSummary T :=
  { name := .str i.name, current := .bool i.current, updateInProgress := .bool i.inProgress
    lastUpdate := i.lastUpdate
    resourceCount := match i.resources with
      | none => .null
      | some n => .int n
    url := if i.url = [] then .null else .str i.url }

/-- A plugin as `pulumi plugin ls --json` knows it; the times are missing when they
are zero. -/
structure Plugin (T : Type) where
  name : Text
  kind : Text
  version : Text
  size : Int
  installed : Option T
  lastUsed : Option T

/-- plugin_ls.go:87-124. -/
def pluginJson {T : Type} (format : T → Text) (p : Plugin T) : D :=
  .dict ([("name".toList, .str p.name), ("kind".toList, .str p.kind),
    ("version".toList, .str p.version), ("size".toList, .int p.size)]
    ++ (p.installed.map fun t => ("installTime".toList, D.str (format t))).toList
    ++ (p.lastUsed.map fun t => ("lastUsedTime".toList, D.str (format t))).toList)

/-- The info that says the same. -/
def PluginInfoOf {T : Type} (p : Plugin T) (i : PluginInfo T) : Prop :=
  i.name = .str p.name ∧ i.kind = .str p.kind ∧ i.version = .str p.version
  ∧ i.size = .int p.size ∧ i.installed = p.installed ∧ p.lastUsed = some i.lastUsed

/-! ## Removing plugins -/

/-- The flags of `pulumi plugin rm` and `pulumi plugin install` (plugin_rm.go:125-131). -/
def pluginKind : Text → Option Cli.Kind :=
  Cli.kindIn (Cli.globalSwitches ++ ["yes", "all", "exact", "reinstall"])
    (Cli.globalValues ++ ["server", "file"])

/-- plugin_rm.go:57-93: whether a plugin (kind, name and version) is removed by
`pulumi plugin rm` with these arguments.  `within` are the version ranges. -/
def rmRemoves (within : Text → Text → Bool) (args : List Text) (p : Text × Text × Text) : Bool :=
  match args with
  | [] => false
  | [k] => p.1 = k
  | [k, n] => p.1 = k && (n = [] || p.2.1 = n)
  | k :: n :: v :: _ => p.1 = k && (n = [] || p.2.1 = n) && within v p.2.2

/-- A plugin that a call of `remove_plugin` asks to remove. -/
def AskedToRemove (within : Text → Text → Bool) (kind : Text) (name version : Option Text)
    (p : Text × Text × Text) : Prop :=
  p.1 = kind ∧ (∀ n, name = some n → p.2.1 = n)
  ∧ (∀ v, version = some v → within v p.2.2 = true)

end Pulumi.Local
