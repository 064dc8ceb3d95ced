import Verif.Deps.Theorems
import Verif.Async.Theorems
import Verif.Output.Theorems
import Verif.Output.Aggregates
import Verif.Output.Joins
import Verif.Graph.Theorems
import Verif.Urn.Theorems
import Verif.Wire.Theorems
import Verif.Wire.Names
import Verif.Resolve.OutputTypes
import Verif.Options.Theorems
import Verif.Construct.Theorems
import Verif.Registry.Theorems
import Verif.Conf.Theorems
import Verif.Loop.Theorems
import Verif.Secrets.Base64
import Verif.Secrets.Model
import Verif.Secrets.Rotate
import Verif.Display.Filter
import Verif.Display.Values
import Verif.Display.Queue
import Verif.Display.Confirm
import Verif.Service.Lease
import Verif.Service.Retry
import Verif.Service.Batches
import Verif.Secrets.Theorems
import Verif.Server.LockTheorems
import Verif.Server.Theorems
import Verif.Pump.Theorems
import Verif.Invoke.Theorems
import Verif.Register.Theorems
import Verif.StackRef.Theorems
import Verif.Output.Inputs
import Verif.Settings.Theorems
import Verif.Import.Lemmas
import Verif.Import.Model
import Verif.Import.Theorems
import Verif.Inline.Theorems
import Verif.Mocks.Theorems
import Verif.Events.Theorems
import Verif.Cli.Theorems
import Verif.Run.Theorems
import Verif.Local.Theorems
import Verif.Local.Shapes
import Verif.Local.Lists
import Verif.Dynamic.Theorems
import Verif.Dynamic.PickleTheorems
import Verif.Types.UnwrapTheorems
import Verif.Types.Theorems
import Verif.Json.Theorems
import Verif.Json.Written
import Verif.Log.Theorems
import Verif.Exec.Theorems
import Verif.Exec.ConfigTheorems
import Verif.Exec.TraceTheorems
import Verif.Exec.Policy
import Verif.Flow.Theorems
import Verif.Flow.Programs
import Verif.Flow.Requests
import Verif.Engine.Echo
import Verif.Engine.Options
import Verif.DepGraph.Model
import Verif.DepGraph.Spec
import Verif.DepGraph.Lemmas
import Verif.DepGraph.Schedule
import Verif.DepGraph.Decide
import Verif.DepGraph.Theorems
import Verif.DepGraph.Edit
import Verif.DepGraph.Targets
import Verif.DepGraph.Replace
import Verif.DepGraph.Protect
import Verif.DepGraph.Spare
import Verif.Snapshot.Theorems
import Verif.Snapshot.Ends
import Verif.Snapshot.IntegrityTheorems
import Verif.Snapshot.Aliases
import Verif.Rename.Model
import Verif.Rename.Spec
import Verif.Rename.Lemmas
import Verif.Rename.Rewrite
import Verif.Rename.Relabel
import Verif.Rename.UrnTheorems
import Verif.Rename.StackTheorems
import Verif.Rename.StateTheorems
import Verif.Paths.Model
import Verif.Paths.Spec
import Verif.Paths.Lemmas
import Verif.Paths.Tree
import Verif.Paths.Theorems
import Verif.Paths.Ignore
import Verif.Paths.IgnoreLemmas
import Verif.Paths.IgnoreTheorems
import Verif.StepGen.Model
import Verif.StepGen.Spec
import Verif.StepGen.Lemmas
import Verif.StepGen.Fates
import Verif.StepGen.Final
import Verif.StepGen.Theorems
import Verif.StepGen.Limits
import Verif.StepGen.Adopt
import Verif.StepGen.Protect
import Verif.StepGen.Targets
import Verif.StepGen.Calm
import Verif.StepGen.Order
import Verif.StepGen.Decide
import Verif.Props.Theorems
import Verif.Plan.Values
import Verif.Plan.ValueLemmas
import Verif.Plan.Inputs
import Verif.Plan.Ops
import Verif.Plan.OpTheorems
import Verif.Plan.Own
import Verif.Plan.Goal
import Verif.Plan.Saved
import Verif.Checkpoint.Model
import Verif.Checkpoint.Spec
import Verif.Checkpoint.Lemmas
import Verif.Checkpoint.Fill
import Verif.Checkpoint.Bulk
import Verif.Checkpoint.Json
import Verif.Checkpoint.Theorems
import Verif.Checkpoint.Deployment
import Verif.Checkpoint.DeploymentSpec
import Verif.Checkpoint.States
import Verif.ConfigMap.Model
import Verif.ConfigMap.Spec
import Verif.ConfigMap.Digits
import Verif.ConfigMap.Lemmas
import Verif.ConfigMap.Theorems
import Verif.ConfigMap.Saved
import Verif.ConfigMap.Findings
import Verif.Filestate.Model
import Verif.Filestate.Spec
import Verif.Filestate.Lemmas
import Verif.Filestate.Save
import Verif.Filestate.Theorems
import Verif.Filestate.Commands
import Verif.Filestate.Renames
import Verif.Filestate.Updates
import Verif.Filestate.Lock
import Verif.Filestate.Names
import Verif.Plugins.InstallModel
import Verif.Plugins.Install
import Verif.Plugins.InstallFindings
import Verif.Plugins.Version
import Verif.Plugins.SelectModel
import Verif.Plugins.Select
import Verif.Plugins.Sets
import Verif.Providers.Registry
import Verif.Providers.RegistryTheorems
import Verif.Providers.Migrate
import Verif.Providers.MigrateTheorems
import Verif.Policy.Config
import Verif.Policy.Enforce
import Verif.Policy.Load
import Verif.Policy.Parse
import Verif.Providers.Defaults
import Verif.Providers.DefaultsLemmas
import Verif.Providers.DefaultsTheorems
import Verif.Workers.Order
import Verif.Steps.Execute
import Verif.Builtin.Theorems
import Verif.Detailed.Translate
import Verif.Verdict.Theorems
import Verif.Interrupt.Theorems
import Verif.CloudRef.Theorems
import Verif.OpLogs.Theorems
