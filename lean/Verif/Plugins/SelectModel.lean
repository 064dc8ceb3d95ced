import Verif.Plugins.Version
/-!
# Choosing plugins

Models `SelectCompatiblePlugin` and the loop of `getPluginInfoAndPath` (`sdk/go/common/workspace/plugins.go`), and the sets of plugins and the default
ones of `pkg/engine/plugins.go`. `sort.Sort` is not stable, and Go maps are walked in any order: both are relations here.
-/
namespace Pulumi.Plugins

/-- `PluginKind` (plugins.go:1297-1306) -/
inductive Kind
  | analyzer | language | resource
deriving DecidableEq, Repr

/-- What of `PluginInfo` (659-669) and `PluginSpec` (568-580) is used here -/
structure Plugin where
  kind : Kind
  name : String
  version : Option Version
  url : String
deriving DecidableEq, Repr

/-- A result of `sort.Sort` with `Less`: the same plugins, none before one that is less -/
def Sorts (l l' : List Plugin) : Prop := l'.Perm l ∧ l'.Pairwise fun p q => less q.version p.version = false

/-- The loop of `SelectCompatiblePlugin` (1798-1823), with the best match so far -/
def select (kind : Kind) (name : String) (requested : Version → Bool) : List Plugin → Option Plugin → Option Plugin
  | [], best => best
  | p :: l, best =>
    if p.kind ≠ kind ∨ p.name ≠ name then select kind name requested l best
    else
      match p.version with
      | none => if best.isNone then select kind name requested l (some p) else select kind name requested l best
      | some v => if requested v then select kind name requested l (some p) else select kind name requested l best

/-- The loop of `getPluginInfoAndPath` (1688-1713), with the match so far: plugins in the order in which the directory lists them. -/
def newest (kind : Kind) (name : String) (version : Option Version) : List Plugin → Option Plugin → Option Plugin
  | [], best => best
  | p :: l, best =>
    if p.kind = kind ∧ p.name = name then
      let m : Bool := match best, version with
        | none, none => true
        | none, some r => match p.version with
          | some v => v.cmp r != .lt
          | none => false
        | some b, r => (match b.version, p.version with
            | none, _ => true
            | some w, some v => v.cmp w == .gt
            | some _, none => false) ||
          (match r, p.version with
            | some r, some v => v.cmp r != .lt
            | _, _ => false)
      if m then newest kind name version l (some p) else newest kind name version l best
    else newest kind name version l best

/-! ## Sets of plugins (pkg/engine/plugins.go) -/

/-- `PluginSpec.String` (652-658), the key of a plugin in a set (pkg/engine/plugins.go:46-48) -/
def Plugin.key (p : Plugin) : String :=
  match p.version with
  | none => p.name
  | some v => p.name ++ "-" ++ v.text

/-- A set of plugins: what a Go map from keys to plugins has. -/
def IsSet (s : List Plugin) : Prop := s.Pairwise fun p q => p.key ≠ q.key

/-- `Add` (46-48) -/
def addPlugin (s : List Plugin) (p : Plugin) : List Plugin := s.filter (·.key ≠ p.key) ++ [p]

/-- `newPluginSet` (109-115) -/
def newSet (l : List Plugin) : List Plugin := l.foldl addPlugin []

/-- No version, and no place to download it from -/
def Plugin.vague (p : Plugin) : Bool := p.version.isNone && p.url == ""

/-- The function of `Deduplicate` (69-92): the plugin kept last for every name, and the new set -/
def dedupStep (st : (String → Option Plugin) × List Plugin) (p : Plugin) : (String → Option Plugin) × List Plugin :=
  match st.1 p.name with
  | some prev =>
    if p.vague then st
    else (fun n => if n = p.name then some p else st.1 n, addPlugin (if prev.vague then st.2.filter (·.key ≠ prev.key) else st.2) p)
  | none => (fun n => if n = p.name then some p else st.1 n, addPlugin st.2 p)

/-- `Deduplicate` (66-97), for an order in which the map is walked -/
def dedup (walk : List Plugin) : List Plugin := (walk.foldl dedupStep (fun _ => none, [])).2

/-- The loop of `computeDefaultProviderPlugins` (307-345); `none` is a failed assertion. -/
def defaultStep (m : String → Option Plugin) (p : Plugin) : Option (String → Option Plugin) :=
  if p.kind ≠ .resource then some m
  else
    match m p.name with
    | some seen =>
      match seen.version, p.version with
      | none, _ => some fun n => if n = p.name then some p else m n
      | some _, none => none
      | some w, some v => if v.cmp w != .lt then some fun n => if n = p.name then some p else m n else none
    | none => some fun n => if n = p.name then some p else m n

/-- `computeDefaultProviderPlugins` (279-357): which plugins it looks at, and for a sorted list of them what it makes of it -/
def defaultSource (language all : List Plugin) : List Plugin := if language.any (·.kind = .resource) then language else all

def defaultsOf (l : List Plugin) : Option (String → Option Plugin) := l.foldlM defaultStep fun _ => none

end Pulumi.Plugins
