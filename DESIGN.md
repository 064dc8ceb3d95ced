# Formal model of the Pulumi Python SDK — design

Source: `/repo/sdk/python/lib/pulumi` (the repository is marked Python; the Go engine is the
environment of this code and is modelled through the messages it exchanges with the SDK, in `Engine` through
its codec for property values, and in `Snapshot`, `DepGraph`, `Rename`, `Paths`, `StepGen` and `Props` through its checkpoint, its deletions, renaming, options with property paths the steps of an update and comparing properties). Paths below are relative to that directory unless they begin with `sdk/` or `pkg/`.

## Layout

| Area | Properties | Code |
|---|---|---|
| `Async` | C09 | asyncio futures, tasks, `gather`, as used by `output.py` |
| `Output` | C01–C08, C10, C11, C41, C42 | `output.py` |
| `Graph` | C12, C43 | `runtime/rpc.py` `contains_unknowns`, `runtime/stack.py` `massage` |
| `Wire` | C13–C22, C45, C46 | `runtime/rpc.py` serialise and deserialise, `asset.py` |
| `Resolve` | C23–C25, C47, C48 | `runtime/rpc.py` transfer, translate, resolve; tails of `register_resource`, `read_resource`, `get_resource` |
| `Deps` | C26–C28 | `runtime/resource_cycle_breaker.py`, dependency expansion and aliases of `prepare_resource` |
| `Urn` | C29–C31, C44 | `urn.py`, URN and alias functions of `resource.py` |
| `Options` | C32 | `ResourceOptions` and its merge |
| `Construct` | C33–C35 | `Resource.__init__`, providers, transformations, `Stack` |
| `Registry` | C36 | package and module registries of `runtime/rpc.py` |
| `Conf` | C37, C38, C49 | `config.py`, `runtime/config.py` |
| `Loop` | C39, C50–C52 | `runtime/rpc_manager.py`, `wait_for_rpcs` and `run_pulumi_func` of `runtime/stack.py` |
| `Server` | C40, C53–C55 | `provider/server.py`, `asyncio.Lock` |
| `Pump` | C56, C57 | `runtime/sync_await.py`, and the parts of asyncio's event loop that it re-enters |
| `Invoke` | C58–C61 | `runtime/invoke.py`, `invoke.py` |
| `Register` | C62–C65 | `runtime/resource.py` requests of `register_resource`, `read_resource`, `register_resource_outputs`; `depends_on` |
| `StackRef` | C66 | `stack_reference.py` `get_output`, `require_output`, `__is_secret_name`, `translate_output_property` |
| `Settings` | C67, C68 | `runtime/settings.py`, `ContextProperty` of `_utils.py`, `MockSettings` of `runtime/mocks.py` |
| `Inline` | C69–C71 | `automation/_server.py`, the end of `pulumi-language-python-exec` |
| `Mocks` | C72–C75 | `runtime/mocks.py` (the mock monitor), over `Wire` and `Urn` |
| `Events` | C76–C79 | `automation/events.py`, the event log watcher and the end of `preview` in `automation/_stack.py` |
| `Cli` | C80–C83 | arguments and environment of the commands that `automation/_stack.py` and `automation/_local_workspace.py` start; the CLI's flag parser (pflag, with the flags of `pkg/cmd/pulumi`) in the specification |
| `Run` | C84–C90 | `automation/_cmd.py`, `automation/errors.py`, `create_or_select`, the version check, `history`, `info`, `stack_outputs`, `import_stack` |
| `Local` | C91–C98 | `automation/_stack_settings.py`, `automation/_project_settings.py`, settings files, workspaces and lists of `automation/_local_workspace.py`, the entries of `Stack.history`; what the CLI prints (from `pkg/cmd/pulumi`) in the specification |
| `Dynamic` | C99–C109 | `dynamic/dynamic.py`, the request handlers of `dynamic/__main__.py`, over `Wire`; the order, the patches and the memo of `serialize_provider`, with the data part of Python's pickler |
| `Types` | C110–C117 | `_types.py`: annotations as data (`Unwrap`), class dicts in method resolution order, the decorators, `get`/`set`, the generated `__init__`, tables of names and types; the translation of option names in `runtime/resource.py` |
| `Json` | C118 | `runtime/_json.py` and what `json.dumps` writes: conversion of input types, texts of numbers and strings with escapes; the spec has a JSON reader |
| `Log` | C119 | `log.py` as a transition system on top of `Loop`: calls, tasks of `_log`, URNs that are resolved, what the engine receives |
| `Exec` | C120–C123 | the executor `pulumi-language-python-exec`, the part of `main.go` that starts it, `argparse` and `posixpath` as far as it uses them, Go's JSON for maps and lists of texts, `policy/__main__.py`. The models of `argparse` and `posixpath` were compared with CPython 3.11 on thousands of random inputs |
| `Flow` | C124–C128 | programs that compute with the outputs of resources, as expressions run by the functions of `Output`, and the requests made from them with `Wire`. Callbacks do not raise; plain values are data |
| `Engine` | C129–C132 | `sdk/go/common/resource/plugin/rpc.go` with what it uses of `asset.go` and `properties.go`: the engine's side of the wire, run against the program's (`Wire`) |
| `Snapshot` | C133–C139 | `pkg/backend/snapshot.go`, `pkg/resource/deploy/snapshot.go`, what steps do to states (`step.go`), rebuilding the base (`deployment_executor.go`): the checkpoint of an update in progress |
| `DepGraph` | C140–C146 | `pkg/resource/graph/dependency_graph.go`, the parts of `step_generator.go` that choose and schedule deletions, `pkg/resource/edit/operations.go` but for renaming, `--exclude-protected` (`pkg/cmd/pulumi/destroy.go`) |
| `Rename` | C147–C150 | `sdk/go/common/resource/urn.go`, `pkg/resource/deploy/providers/reference.go`, `RenameStack` (`pkg/resource/edit/operations.go`), `pkg/cmd/pulumi/state_rename.go` |
| `Paths` | C151–C155 | `sdk/go/common/resource/properties_path.go`, `applyReplaceOnChanges` and `processIgnoreChanges` (`pkg/resource/deploy/step_generator.go`) |
| `StepGen` | C156–C162 | `GenerateSteps`, `GenerateReadSteps` and the deletions of `pkg/resource/deploy/step_generator.go`, the marks of `pkg/resource/deploy/step.go`, the order of `pkg/resource/deploy/deployment_executor.go` |
| `Props` | C165–C171 | `Diff`, `DeepEquals`, `ChangedKeys` of `sdk/go/common/resource/properties_diff.go`, the detailed diffs of `sdk/go/common/resource/plugin/provider.go`, `diffResource` of `pkg/resource/deploy/step_generator.go` |
| `Plan` | C172–C177 | plans: `checkDiff`, `checkGoal`, `checkMissingPlan`, `NewGoalPlan` (pkg/resource/deploy/plan.go), `DiffIncludeUnknowns`, `DeepEqualsIncludeUnknowns` (properties_diff.go), recording and checking of operations (step_generator.go, deployment_executor.go), previews. Not modelled: seeds and checked inputs fed to Check, plans of outputs beyond `checkDiff`, serialisation of plans |
| `Checkpoint` | C178–C183 | state files: `SerializePropertyValue`, `DeserializePropertyValue`, `collectCiphertexts`, resources, operations and deployments (pkg/resource/stack/deployment.go), `mapDecrypter`, `cachingCrypter` (secrets.go), migrations of old versions (sdk/go/common/apitype/migrate). Ciphers, the manifest and `encoding/json` on the typed structs are parameters or left out; the JSON of values in secrets is a parameter with an instance (`json_faithful`). |
| `ConfigMap` | C184–C188 | the configuration of a stack: keys, values, secrets and paths (sdk/go/common/resource/config/map.go, value.go, key.go) over JSON texts. Not modelled: YAML, floats, `SecureValues`, `Less`. |
| `Filestate` | C189–C196 | stacks as files of a bucket (pkg/backend/filestate/state.go, backend.go, bucket.go, lock.go): saving, creating, removing, renaming, updating, history, the lock, names. A command is a program of calls to the bucket, each of which may succeed, fail, or fail with its effect; a crash stops it anywhere. `Save.lean` has a logic for what holds at every point, `Lock.lean` lifts it to all schedules. Not modelled: displays, the engine but for the states it saves, contents of files but for what they read as, partial writes of one object, previews, watch, the wrapping bucket. |
| `Plugins` | C197–C199 | `sdk/go/common/workspace/plugins.go` (installing, locks, choosing), `sdk/go/common/util/fsutil/lock.go`, `pkg/engine/plugins.go` (sets and default plugins) |
| Providers | C200, C201, C202 | pkg/resource/deploy/deployment.go:194-315, pkg/resource/deploy/source_eval.go:243-470 and 601-616, pkg/resource/deploy/providers/{provider,registry}.go, sdk/go/common/tokens/names.go:38-85 |
| `Plan` (saved) | C203 | `pkg/resource/stack/plan.go`, `pkg/cmd/pulumi/util.go` (plans), `sdk/go/common/apitype/plan.go` |
| Import | C204 | `pkg/resource/deploy/import.go`; of `pkg/resource/deploy/step.go` `ImportStep.Apply` |
| Secrets | C205–C207 | `sdk/go/common/resource/config/crypt.go` (symmetric crypter), `pkg/secrets/passphrase/manager.go`, `pkg/cmd/pulumi/stack_change_secrets_provider.go` for the passphrase provider |
| Service | C208, C209 | pkg/backend/httpstate/token_source.go, state.go |
| Display | C210-C213 | sdk/go/common/util/logging/log.go, pkg/engine/events.go, pkg/backend/display/events.go, pkg/backend/apply.go, pkg/cmd/pulumi/util.go |
| Policy | C214–C216 | pkg/resource/analyzer/config.go, pkg/engine/update.go (installAndLoadPolicyPlugins), step_generator.go and deployment_executor.go (analyzers), analyzer_plugin.go (Configure) |
| Service (Retry) | C217 | sdk/go/common/util/retry/until.go, httputil/http.go, httpstate/client/api.go |
| Workers | C218, C219 | pkg/resource/deploy/step_executor.go (submission, workers, chains, cancellation), deployment.go (parallelism) |
| Steps | C220, C221, C222 | pkg/resource/deploy/step.go (Apply), step_executor.go (executeStep, ExecuteRegisterResourceOutputs), pkg/engine/update.go (OnResourceStepPre, OnResourceStepPost) |
| Builtin | C223 | `pkg/resource/deploy/builtins.go`, `pkg/backend/backend.go:286-352`, `GetRootStackResource`, `ContainsSecrets` |
| Detailed | C224 | `pkg/engine/detailedDiff.go` |
| `Verdict` | C225 | `pkg/resource/deploy/deployment_executor.go`: `Execute`, `checkTargets`, `performDeletes`, `reportExecResult`, as far as the result and what is reported go. Given: what the refresh, the import, the source, the step generator, the step executor and the policies answer |
| `Interrupt` | C226 | `pkg/cmd/pulumi/util.go` (cancellation scopes), `pkg/util/cancel/context.go`, `pkg/engine/deployment.go`: `run`, the beginning of `OnResourceStepPost` in `pkg/engine/update.go`. Given: the result of the deployment and when its steps complete |
| `CloudRef` | C227 | `pkg/backend/httpstate/backend.go`: `parseStackName`, `ParseStackReference`; `pkg/backend/httpstate/stack.go`: `cloudBackendReference.String`. Given: the default organization, the user and the project, each with whether it can be told |
| `OpLogs` | C228 | `pkg/operations/resources.go`: `GetLogs`, from the answers of the children on. Not modelled: the providers of logs (CloudWatch and others), the filter by resource |

All areas are directories under `lean/Verif/`. `Model.lean` (and `Lock.lean`) hold the model, in which each definition cites
file and lines. `Spec.lean`, where there is something to specify beyond a line, is a specification that does not use the
model's helpers. `Theorems.lean` (and `LockTheorems.lean`) have the property theorems with a non-vacuity `example` beside
each; the other files are auxiliary facts. `seeded/LOG.jsonl` lists the wrong programs the theorems were tried on.

## Modelling decisions

* **Strings** are Lean `String` where only equality or a prefix matters and `List Char` where the code
  splits and searches.
* **dict** is an association list with Python's semantics: assignment to an existing key keeps its
  position, a new key goes to the end.
* **Exceptions** are values (`Except`/a result type), never totalised away.
* **asyncio**: a task is a tree of effects (`await`, `set_result`, `ensure_future`, `gather`, new future).
  A scheduler step runs any one ready task by one effect; theorems quantify over every sequence of
  steps, of which asyncio's FIFO order is one. Task cancellation and timeouts are not modelled. When
  several members of a `gather` fail, which exception is propagated depends on timing; the model gives
  such a failure one anonymous identity.
* **Names of futures** are derived from the creating task, so that two schedules can be compared.
* **Numbers** are integers on the wire (floats of the protocol are only moved around, never computed with).

* **Outcomes of awaitables** in `Wire`, `Urn`, `Options` and `Server` are given together with the awaitable. That an
  outcome does not depend on the schedule is C09.

## Plan per property

| Id | What is modelled | How it is proved |
|---|---|---|
| C01–C04, C10 | coroutine of `apply` as a task program, `Output.__init__` as a spawned task | run the task program against the final valuation of futures (theorem of C09), case analysis over the source's futures and the callback's outcome |
| C05 | same, plus denotational form of a resolved Output | equational, from C01–C04 |
| C06, C07, C08 | `all`, `from_input`, `secret`, `unsecret` as programs | induction over the nested value |
| C09 | small-step semantics of the event loop | diamond property, induction on executions; monotonicity of the future store |
| C11 | `_map2_output` as written | negation with a witness; partial theorem for what does hold |
| C12 | heap graph with identities and the identity stack | invariant of the DFS, equivalence with inductive reachability |
| C13–C16, C20 | `serialize_property` branch by branch over an inductive universe of Python values | structural induction; specification = inductive "occurs in" relations |
| C17–C19, C21, C22 | `deserialize_properties/_property` over wire values | structural induction |
| C23–C25 | resolver tables, `resolve_outputs`, exception path | induction over property lists; write-once cells that record double resolution as an error |
| C26 | component trees, `_add_dependency` with the cycle breaker | induction over the tree |
| C27 | dependency graph and its DFS | invariant over histories |
| C28 | the alias loop | induction over the list |
| C29–C31 | URN functions over characters | split/join lemmas |
| C32–C35 | option records in a heap, resource constructor | algebra; induction over histories of constructions |
| C36 | registry as history | invariant and maximality by induction |
| C37, C38, C49 | contexts and config dictionaries, getters | case analysis, histories |
| C39, C50–C52 | transition system of tasks, RPC list and loop | inductive invariants over all schedules; explicit executions for negations |
| C40 | transition system of the lock, its waiters and cancellation | inductive invariants over all schedules |
| C41, C42 | `concat`, `__getattr__`, `__getitem__` as compositions | equational, from C01–C06 |
| C43 | `massage` on heap graphs | induction on fuel bounded by the number of objects |
| C44 | `collapse_alias_to_urn` | case analysis |
| C45, C46 | name translation and references in `serialize_property` | structural induction |
| C47, C48 | `resolve_outputs`, `translate_output_properties` | case analysis, structural induction over types |
| C53–C55 | `_construct_inputs`, `_construct_response`, `_construct_options` | structural induction; negations by witness |
| C56, C57 | the event loop as a stack machine: `run_forever`, `_run_once`, task steps and nested synchronous waits | invariant over all executions; negation by an execution |
| C58, C59 | `invoke`: request, reply, what is raised and recorded, options | equivalences with a specification; induction over the invokes; negation by witness |
| C60 | `InvokeOptions.merge` on a heap of options objects | case analysis; negations by witness |
| C61 | `call`: request, reply, futures of the Output | equivalences with a specification |
| C62, C63 | `prepare_resource`, the messages, the option translations | field by field against a specification; names via C45 |
| C64 | `depends_on` as a nest of awaitables and Outputs with single-use coroutines; expansion as in C26 | induction over the nest, then C15 and C26; negations for coroutines |
| C65 | `do_read` with the futures of C23 | case analysis; negations for unknown and secret ids |
| C66 | `get_output` and `__is_secret_name` as tasks of the event loop model | following the coroutines; `Output.all` and `apply` theorems; negation for secret names |
| C67, C68 | a process with contexts (context variables), the fallback values of `ContextProperty`, feature caches as mutable dicts and outstanding feature requests | frame lemma over all histories; invariant that each cache belongs to the monitor its contexts show; negations |
| C69 | a process with any number of event loops of `Loop`, which share one RPC manager, and the cleanup at the end of `Run` | invariant: in sequential histories the manager holds only the current run's RPCs, so that each run projects to an execution of `Loop`; negations by explicit executions |
| C70 | classification of exceptions in `Run` and in the exec script | case analysis, and composition with C69 and C39 |
| C71 | `Run`'s calls of `set_all_config` on the model of `Conf` | frame over histories; negations |
| C72 | overlapping handlers of the mock monitor, as steps | invariant over histories |
| C73 | `make_urn` on chains of resources | injectivity of URN texts; negation |
| C74 | the handlers with arbitrary mocks | case analysis, invariant, C16; negation |
| C75 | serialisation without output values, then deserialisation | structural induction, both ways |
| C76 | `from_json` of all event classes; the engine's JSON from `apitype/events.go` in the specification | case analysis over kinds, field lookup; negations |
| C77 | file, reader and callback as steps of any schedule; `json.loads` a parameter with the facts about JSON texts it needs | invariant over schedules; negation |
| C78 | the same | invariant; negation |
| C79 | the same, and the end of `preview` | from C77; negation |
| C80 | arguments of the four operations as a function of the options; the CLI as a flag parser in the specification | word by word over the command line; negations |
| C81 | the same for config commands | the same |
| C82 | the same for stack commands | the same |
| C83 | environments as partial functions, `dict.update` and `\|` | case analysis |
| C84 | the read loop over the pieces of the output and the answers of `poll` | induction over pieces and polls |
| C85 | the searches of `errors.py` as functions on texts; substrings and `.*` as relations in the specification | search = relation by induction; case analysis |
| C86 | an arbitrary CLI; then one with a set of stacks and changes by others in between | case analysis; negation |
| C87 | the version as parsed, compared as by `semver` (from `Registry`) | case analysis; negation |
| C88 | arguments (from `Cli`) and what the CLI shows for them | parser, list lemmas; negation |
| C89 | values with secrets at any depth, as the CLI prints them with and without secrets | induction; negations |
| C90 | the set of temporary files | definition; negation |
| C91 | settings, data of files, directories as partial functions from names; reading back what `yaml.dump`/`json.dump` wrote gives the data | lookup lemmas, induction over configs; negations |
| C92 | the same, starting from a file | the same; which entries survive, exactly |
| C93 | file names as texts | list lemmas on parts and extensions |
| C94 | keyword arguments, instances of classes as a kind of data | lookup lemmas; negations |
| C95 | disks, the options object as a value before and after the call | case analysis, from C93 and C94; negations |
| C96 | what the CLI prints in the specification, `strptime` a left inverse of its format | induction over lists; negations |
| C97 | the same | the same |
| C98 | arguments, parser from `Cli`, the selection of `plugin rm` | parser lemmas; negation |
| C99 | properties of requests, providers as arbitrary functions, histories as an inductive relation | induction over histories; the entry survives (de)serialisation |
| C100 | the handlers; what whoever reads the response gets | from the round trips of `Wire`; case analysis |
| C101 | constructor, request, handler composed | the same; structural induction over wire data for the echo |
| C102 | the choice of the provider | case analysis; negation |
| C103 | `DiffResult` to `DiffResponse` | case analysis; negation |
| C104 | `Read` | as C100; negation |
| C105 | the constructor with the dict of the caller | case analysis; negation |
| C106 | class statements, type names as texts | list lemma on the last colon; negations |
| C107 | data with identities, opcodes, memo | insertion sort is invariant under permutation, structural induction; negations |
| C108 | patches as layers, each a stack frame | structural induction on the depth needed; negations |
| C109 | state of the `pickle` module | induction over calls; negation |
| C110 | annotations as a data type, unions as Python makes them | case analysis over the wrappers; negations |
| C111 | class dicts, decorators, instances as stores | what the decorators make of a declaration (`Realises`), then induction over the properties |
| C112 | attribute access by the properties of the class | induction over the assignments |
| C113 | both declarations | both meet `Realises` with the same keys |
| C114 | `output_type`, `_translate_property` | as C111, keys are the translated names; negation |
| C115 | the generated `__eq__` | stores are determined by the arguments; negation |
| C116 | subclasses as further class dicts | `Realises` is inherited; negations |
| C117 | tables of names and types, outputs of a resource | induction over properties and outputs; negations |
| C118 | `to_json`, `json.dumps`, a reader of JSON written independently | the text of an object is the text of its meaning (mutual induction), and the reader reads that text back; negations |
| C119 | calls, tasks, URNs and the wait loop | invariant over all executions; executions as witnesses for the negations |
| C120 | arguments of the host, `argparse`, settings and `sys.argv` | the command line is parsed back to the request; families of requests as witnesses for the negations |
| C121 | Go's JSON, the environment, `runtime/config.py` | round trip through the JSON reader of `Json/Spec.lean`, then the precedence theorem of `Conf` |
| C122 | `_get_user_stacktrace`, `splitext`, `normpath`, `abspath` | paths as directories and names; normal paths are rendered and split back |
| C123 | `policy/__main__.py` | case analysis on top of `Conf` |
| C124-C128 | expressions with arbitrary callbacks run on the event loop model; a denotation in terms of views; adequacy by induction, then two-run (noninterference) theorems; requests by the wire model |
| C129 | The engine's `UnmarshalProperties` with the options of `source_eval.go`, run on what the modelled `serialize_property` sends; a relation `Means` says what a value means; induction on sendable values. |
| C130 | The engine's `MarshalProperties` followed by the modelled `deserialize_property`; a relation `Shown` says what is seen; induction on it. |
| C131 | Round trips: Go to Go by induction on clean values; program to engine to program by composing C129 and C130. |
| C132 | Two predicates on values, one per direction, say what an option excludes; lifted to every part of a value; induction on wire values and on the engine's values. |
| C133 | The engine as a transition system: a heap of resource states, the snapshot manager, the steps in progress, the checkpoint on disk and the physical resources. Histories of any number of updates with a crash anywhere. An invariant gives, for each physical resource, the reason why every later save accounts for it. |
| C134 | First half from the invariant of C133; second half by an invariant of its own that needs no assumption. |
| C135 | One or two transitions from any state whatever; case analysis on the step. |
| C136 | Induction over the list, with what has been seen kept beside it; each error by the check that gives it. |
| C137 | The heap-changing loops are shown equal to functions on lists of states; induction over the list with its states marked as staying or gone. A live copy of a URN comes before all others, so a parent that stays, stays in front. |
| C138 | Invariant: what the next save would write is intact. One lemma covers all ends of steps: states are dropped from the base and at most one is put in front of it. |
| C139 | The alias map is characterised by induction; the rest is pointwise. |
| C140 | The scan is characterised by induction over the list, with the set found so far generalised; for intact lists it is then compared with the closure of references. |
| C141 | Induction over the rounds: a round is never empty, as the first condemned state in the list is always ready; what is ready is characterised by the graph, and the graph by the chain of parents. |
| C142 | Deletions are the filtered reversed range; membership pointwise. |
| C143 | The search for dependents is shown to end (every visited state is new) and to give the closure of its targets; the closure is then compared with what is deleted. |
| C144 | Induction over the dependents found, with the set of what is lost generalised. |
| C145 | Case analysis; erasing a state nobody refers to keeps the others backed. |
| C146 | Depth-first search by mutual recursion: marks stay within a closed predicate, and all marks but those in the making are followed. It ends since an intact list refers backwards only. |
| C147 | Splitting and joining are inverse; the pieces of a text have no separators and do not run into each other. |
| C148 | The last separator found is the one that was written exactly if the ID has none and does not begin with a colon. |
| C149 | The rewriting of URNs is injective on those of a stack; a relabelling by an injective function keeps a list intact and its references. |
| C150 | The same for the replacement of a single URN; where it does not reach, a reference is left without its resource. |
| C151 | The parser on lists of characters, with its errors; round trip by induction on the path, for any text that follows. |
| C152 | `Set` and `Delete` as changes of a tree; induction on the path. |
| C153 | `applyReplaceOnChanges` whole; the decision is characterised by coverage of paths (`Covers`), not by the code. |
| C154 | The shallow copy is modelled by where each member comes from; invariant of the loop: every handled path has its old value, and a write to what is shared with the old inputs changes nothing. |
| C155 | The same model, looking at the inputs of the program afterwards. |
| C156–C162 | `StepGen` models the step generator as a function from its state and an event to steps and a new state; what depends on property values, providers and policies is an answer that comes with the event. Every event's outcome is one of ten (`Outcome`) or three (`ReadOutcome`) shapes; invariants over the list of events give the fates, the order, the targets, the absence of crashes. Left out: update plans, assertions about IDs and providers, steps that fail (they are in `Snapshot`), steps of different events in parallel. |
| C163 | `StepGen/Decide.lean`: the steps of an accepted registration computed from the diff after `replaceOnChanges`, case by case. |
| C164 | `StepGen/Decide.lean`: from the outcome of a registration or a read back to `checkParent`. |
| C165–C168 | `Props`: `DeepEquals` and `Diff` as functions on values, `none` where Go panics. Equality of arrays and objects is characterised by elements and keys; everything else is by induction on the old value (`EV.parts`). |
| C169, C170 | `Props`: the changes of a diff as a list of paths; texts of paths by `Paths.path_round_trip`; both directions by induction on the value and on the path. |
| C171 | `Props`: `diffResource` on top of `Paths.processIgnoreChanges` and `mapDiff`. |
| C172, C177 | operations of a plan as an association list from URNs to lists; enforcing and recording as folds over the events of an update; invariants by induction; the events of an update are those of `StepGen.update` |
| C173–C175 | `checkDiff` and `checkGoal` function by function; `Resolves` says inductively what unknowns come to |
| C176 | induction over the registrations: the branches that depend on `preview` only ever refuse |
| C178, C182 | induction over storable values, with the state of the encrypter; reading has fuel because the text of a secret is parsed again |
| C179 | writing is filling the ciphertexts into a skeleton that does not depend on what is in secrets |
| C180, C181 | invariants of the two caches; what reading asks the decrypter for is what was collected |
| C183 | versions and migrations, field by field, against a specification of an upgraded resource |
| C184 | `Map.set`, `Map.get` over JSON trees; `setAt_same` by induction on the path; what a text becomes in a tree (`adjust`) and prints as |
| C185 | `setAt_apart` by induction on the path: what is read at a path apart from the one set is as before; `setAt_prefix`: what is passed on the way is a container and no secret |
| C186 | `removeAt_name`, `removeAt_idx` by induction on the path; how the value at the top is written and read again (`fromJson`) |
| C187 | `cut`, `parseKey` and `Key.text`; `toJson`, `fromJson` for consistent values; induction on the map |
| C188 | mutual induction on the tree for decrypting and encrypting anew, with the state of the encrypter threaded and an invariant of it |
| C189 | processes with the phases of `Lock` (list, write, list, run, delete), any number, any schedule; a listing may miss or see locks that come and go while it runs | invariant: who runs has a lock which no other one that runs or checks can miss; refinement to one command after the other |
| C190 | `saveStack` as a program of calls | a property of all reachable points, by the rules of `Always` |
| C191 | `CreateStack` | as C190 |
| C192 | `RemoveStack`, `removeAllByPrefix` | as C190, induction on the listing |
| C193 | `RenameStack`, `renameHistory` | as C190, induction on the listing with an invariant for what was moved |
| C194 | `apply` with an engine that is a tree of saves | as C190, induction on the engine; with C189 for all schedules |
| C195 | `getHistory` | lists: pages by `drop` and `take` concatenate to the whole |
| C196 | the names of files as texts | characters of names exclude the separators; cases on the kinds of files |
| C197 | Processes that install or delete one plugin, with its directory, the mark of an unfinished installation and the lock file, which has an identity | Invariant over all steps, with failures and crashes between any two |
| C198 | The order of semantic versions, and both loops that choose a plugin; sorting as a relation | Induction on the sorted list; ties in the order have equal texts |
| C199 | Sets keyed by name and version, Deduplicate and the loop for default plugins; walking a map in any order | Invariant of the walk that speaks of the set only; the last one of a sorted list is the greatest |
| C200 | The loops of addDefaultProviders, migrateProviders and buildResourceMap over the states of the checkpoint model; URNs, configuration and manifest are parameters | Induction on the list with what the references so far say; integrity through intactFrom_iff |
| C201 | Names and keys as texts, requests served one after the other with what the engine does about each registration | Keys and names are cut apart character by character; induction on the requests with the map of references |
| C202 | The registry with numbered plugins and its calls, against a specification in which every reference has a plugin of its own. Calls are atomic: Same writes the map with a read lock only and RegisterAlias without one, which the model does not show | Refinement: invariant by induction on the calls |
| C203 | Writing and reading plan files, over the model of property values in state files (C178). | The round trip of properties for each field; what is kept of a value is compared like the value (`eqU_kept`, by induction on values), so `checkGoal` and `checkDiff` say the same. |
| C204 | The phases of an import over lists of states (those there are, the stack, default providers, imports), with plugins, URNs and the order and number of the steps that end as parameters. | A shape lemma says what is saved in every outcome; each phase has a specification by induction over the imports; intactness by appending lists that do not depend on each other. |
| C205 | Base 64 on lists of bytes and characters, the text of an encrypted value, with key derivation and cipher as parameters. | Induction over groups of three bytes with linear arithmetic; splitting at a character that does not occur. |
| C206 | The functions that give managers, with the cache passed along, the environment and the lines typed as inputs. | An invariant of the cache over histories of calls: what is in it was opened by the right passphrase. |
| C207 | The command as a list of what is on disk after every write. | Induction over the configuration; the crash point after the first write as a counterexample. |
| C208 | The loop of the token source over ticks and requests with times and the answers of the service | Invariant that the token is one the service granted and expires its duration after it came; induction over the events |
| C209 | The batching loop and the sending goroutines as a transition system | Invariant: sent, busy and waiting batches are a permutation of those made, which are consecutive; a weight that every step lowers |
| C210 | The replacer over lists of characters, and the chain of filters | A text without brackets that is in the result was in the text at a place where nothing was replaced; induction over the text and the filters |
| C211 | Filtering of values, assets and archives, then the writer of checkpoints with the encrypter that blinds | Filtering forgets what is in secrets; every text of the result is a filtered one; structural induction |
| C212 | Senders, queue and receiver as a transition system | Invariant: accepted is delivered followed by the queue; a weight for the end |
| C213 | Preview, question and execution with the engine and the replies as parameters | Case analysis, induction over the replies |
| C214 | Defaults, "all", own and user configuration of a policy pack, validation with any validator | Each step characterised by what a lookup gives, then composed |
| C215 | Reading the file and the service's configuration, loading all packs | Acceptance characterised entry by entry; invariant of the loading loop |
| C216 | Analysis of each resource and of the stack, and the end of a run | The run splits at the first resource that does not pass; success characterised |
| C217 | Until, doWithRetry with the body's reader, the client's Do and what a call makes of a response | Induction over the attempts with the log before each attempt as invariant; the loop is proved to end |
| C218 | the executor as a transition system: chains offered, held, cleared, in a step, failing, closed; events logged | an invariant gives the events of each chain; progress by cases, termination by a measure |
| C219 | the same | steps begun or cleared never grow after a cancellation |
| C220, C221 | Apply of each kind of step as a function of the states and the provider's answers | by cases |
| C222 | executeStep as a function to the list of what happens in order | by cases; induction over the names for secrets |
| C223 | The built-in provider as functions of its inputs, of a backend given by three functions, and of the resources registered; maps in any order; assertions and nil dereferences end the process | Iff statements against a specification of secrets, of a stack's outputs and of the list of secret names; uniqueness of a sorted permutation without repeats |
| C224 | The loop that inserts each entry of a detailed diff into a tree of diffs, in any order | A specification of what one entry means; induction on paths for what is shown, kept and nothing else; commutation of entries apart from one another, lifted to permutations |
| C225 | The main loop as a function of the observations its `select` makes, in any order, and what precedes and follows it | The condition of success as an equivalence, by induction over the observations; the reports by cases; the negations for every set of deletions, plan and target |
| C226 | A transition system of the user, the goroutine that receives signals, the one that passes the cancellation on, the deployment and the waiter | One inductive invariant over all runs |
| C227 | Reading and showing of stack names over lists of characters | Splitting at slashes by induction; reading by number of parts; reading back by the cases of what is left out |
| C228 | The gathering of answers in any order, the stable sort and the loop that removes duplicates | Induction over the entries, with the messages kept at the last time as invariant |

## Trusted base

* Lean 4.33.0's kernel. Axioms: at most `propext`, `Classical.choice`, `Quot.sound`; none of our own. The table at the end
  lists them for each claimed theorem.
* The reading of the Python code into the model (cited definition by definition).
* Python/asyncio/protobuf/grpc behaviour as described under "Modelling decisions" and at the head of each `Model.lean`.

## Not modelled

gRPC transport, protobuf encoding below the struct level, operating system processes and files beyond the read loop of `Run`, pickling of functions and classes, logging,
the Go engine (but its codec and its checkpoint), Python's `typing` introspection beyond what is cited, the policy SDK (but its start), the rest of the language host (plugins, virtual environments, dependencies).

## Disagreements found between the code and its properties

Each has a theorem with a concrete witness (or an equivalence); the property's remaining content is proved beside it.

| Property | Finding | Theorem |
|---|---|---|
| C07 | `Output.from_input` of an input-class instance with no fields raises a TypeError | `Output.fromInput_empty_input` |
| C11 | `_map2_output` ignores the secret flag of its first output | `Output.join_loses_secret_witness` |
| C15 | a property that serialises to None is dropped together with its dependencies | `Wire.none_property_loses_dependency` |
| C17 | a secret null keeps a None entry; markers inside output values stay | `Wire.secret_null_entry_kept`, `Wire.output_value_keeps_marker` |
| C18 | `keep_unknowns` is forgotten below a secret or archive; an unknown asset path is left as the sentinel text | `Wire.unknown_under_secret_lost`, `Wire.unknown_asset_path` |
| C19 | `keep_internal` works at the top level only | `Wire.keep_internal_top_only` |
| C21 | archive entries whose names begin with two underscores are lost | `Wire.archive_loses_dunder_file` |
| C23 | when the monitor replies None nothing is resolved | `Resolve.no_reply_leaves_pending` |
| C24 | an output that the engine reports as null shows the program's input | `Resolve.null_output_shows_input` |
| C25 | a malformed reply to a read or lookup leaves the properties pending | `Resolve.read_bad_response_hangs` |
| C29 | a provider id that begins with a colon is misread | `Urn.parse_ref_iff` |
| C32 | merging on an instance that is itself the result of a merge loses it; a tuple of providers is lost | `Options.chained_instance_merge_loses_partial`, `Options.tuple_providers_lost` |
| C33 | an explicit provider of another package is filed under the resource's package; a remote component's providers are not passed on | `Construct.explicit_provider_misfiled`, `Construct.remote_providers_lost` |
| C34 | a stack transformation registered after a component misses the component's later children; a `DependencyResource` cannot be a parent | `Construct.late_stack_transformation_missed`, `Construct.dependency_parent_rejected` |
| C36 | acceptance compares version parts separately; module keys collide when names contain colons | `Registry.acceptance_is_not_the_order`, `Registry.moduleKey_collision` |
| C37 | `set_config` in a task changes its creator's config | `Conf.set_in_task_leaks` |
| C38 | a JSON null counts as missing | `Conf.null_object_missing` |
| C40 | tasks that outlive a request go on under the settings of the next | `Server.leftover_sees_other_settings` |
| C43 | the second reference to a shared object is exported as None | `Graph.massage_loses_shared` |
| C44 | an alias's stack and project are ignored when the resource has a parent | `Urn.alias_stack_project_ignored` |
| C49 | bags such as `my-app` and `my_app` share environment variables; full keys collide | `Conf.bags_share_environment`, `Conf.bags_share_keys` |
| C50 | tasks created during the final wait are abandoned; RPCs of tasks that have not started are missed | `Loop.work_left_behind`, `Loop.unstarted_rpc_missed` |
| C51 | one failed RPC makes every later request to the provider fail | `Loop.failure_poisons_later_requests` |
| C52 | with several failures a later one is reported | `Loop.later_failure_reported` |
| C53 | an input with an Output inside loses the declared dependency on an unregistered resource reference | `Server.dependency_lost` |
| C55 | a requested parent is always dropped | `Server.parent_dropped` |
| C57 | an invoke whose result is there still waits for every invoke started later from within its wait | `Pump.done_but_blocked` |
| C59 | an invoke writes its parent's provider into the caller's options object; an invoke of another package with the same options then uses the wrong provider | `Invoke.reused_options` |
| C60 | merging a bag without a version, or `None`, loses the version of the first bag | `Invoke.merge_loses_version` |
| C60 | `a.merge(b).merge(c)` loses everything of `b` | `Invoke.chained_merge_loses` |
| C63 | property paths such as `the_tags.x` in `ignore_changes` or `replace_on_changes` are sent untranslated | `Register.path_not_translated` |
| C64 | a coroutine as `depends_on` makes every registration fail: creating the options has awaited it | `Register.coroutine_fails` |
| C64 | a coroutine as an entry of `depends_on` makes the second registration with the options fail | `Register.coroutine_entry_fails_later` |
| C65 | reading with an unknown id resolves the resource's id as known, to the sentinel | `Register.read_unknown_id` |
| C65 | reading with a secret id fails | `Register.read_secret_id` |
| C66 | looking up a secret name gives a non-secret Output unless that output is listed as secret | `StackRef.secret_name_lost` |
| C67 | a thread without settings reads the settings of the first program that made some | `Settings.unset_context_sees_others` |
| C67 | the mock monitor runs in executor threads and so ignores the project and stack given to `set_mocks` | `Settings.mock_names_ignored_in_threads` |
| C68 | `set_mocks` keeps the feature answers of the previous monitor | `Settings.mock_keeps_answers` |
| C69 | programs that run at the same time share the RPC manager: one pops and raises the failure of the other, which returns as if it had succeeded | `Inline.concurrent_failure_swapped` |
| C69 | the cleanup of a failed run can raise the exception of a task that ends meanwhile; then the manager is not cleared and the next run fails | `Inline.cleanup_failure_poisons` |
| C70 | a gRPC error with the status UNAVAILABLE, from whatever service, and `RunError("")` are reported as success | `Inline.unavailable_is_success`, `Inline.empty_run_error_is_success` |
| C71 | a run without configuration (or without secret keys) keeps that of the earlier run on the thread; runs without configuration share one dict | `Inline.empty_config_keeps_previous`, `Inline.stale_secret_keys`, `Inline.empty_configs_shared` |
| C73 | under mocks, only the type of the direct parent is part of a URN: resources below grandparents of different types collide, and the later one replaces the earlier one | `Mocks.grandparents_confused` |
| C74 | a mock `call` that returns `(dict, None)`, as its signature allows, makes the call raise `TypeError` | `Mocks.none_failures_raise` |
| C76 | the stream of a diagnostic, the resource of a policy violation and the detailed diff of a step are never shown: `streamId`, `resource_urn` and `detailed_diff` are not the engine's names | `Events.stream_never_shown`, `Events.policy_resource_never_shown`, `Events.detailed_diff_never_shown` |
| C77 | a read between two pieces of a line ends the watcher: all later events are lost | `Events.torn_line_loses` |
| C78 | a command that ends without a cancel event leaves a non-daemon thread polling for ever | `Events.watcher_never_ends` |
| C79 | a torn line makes a successful `preview` raise | `Events.preview_summary_lost` |
| C80 | any log verbosity makes every operation raise `TypeError`; `parallel=0` is lost; a message `--non-interactive` makes the command interactive; a policy pack with a comma is split | `Cli.verbosity_raises`, `Cli.parallel_zero_lost`, `Cli.message_makes_interactive`, `Cli.comma_splits` |
| C81 | a key that looks like a flag is read as one; `set_all_config` cuts keys at `=` | `Cli.remove_help_removes_nothing`, `Cli.set_all_cuts_key` |
| C82 | a name that looks like a flag is read as one | `Cli.select_flag_like` |
| C83 | with an empty home, commands of the workspace and of the stack differ | `Cli.empty_home_differs` |
| C86 | the stack may be removed between the two commands | `Run.create_or_select_races` |
| C87 | a CLI that prints nothing makes the workspace raise `IndexError` | `Run.empty_version_raises` |
| C88 | without a page size, only the ten newest updates | `Run.history_default_ten` |
| C89 | nested secrets are shown and not marked; the text `[secret]` is marked; an update in between makes it raise | `Run.nested_secret_shown`, `Run.sentinel_marked`, `Run.outputs_race` |
| C90 | a failing import leaves the file with plain secrets | `Run.import_leaves_file` |
| C91 | a number or boolean in a stack's config makes its settings unreadable; lists and mappings are lost | `Local.number_makes_unreadable`, `Local.structured_lost` |
| C92 | reading and saving back deletes structured config and unknown keys | `Local.resave_deletes` |
| C94 | `ProjectRuntimeInfo` and the like cannot be read back, and destroy a `Pulumi.json`; keys and runtimes of the CLI are refused | `Local.object_makes_unreadable`, `Local.object_destroys_json`, `Local.cli_project_unreadable` |
| C95 | the options object is changed: used again, it carries the first project and program, and overwrites a local project | `Local.reused_options_keep_project`, `Local.reused_options_overwrite_local` |
| C96 | running updates, and hidden secrets, raise `KeyError` — also in `up(show_secrets=False)` after the update | `Local.history_running_raises`, `Local.history_hidden_raises` |
| C97 | a plugin that was never used makes `list_plugins` raise | `Local.unused_plugin_raises` |
| C98 | a version range without a name is taken for a name | `Local.version_taken_for_name` |
| C100 | a provider that does not override `update` loses all properties of the resource | `Dynamic.default_update_empties` |
| C102 | an unknown provider is compared with the text of the unknown marker and never recognised, so `Check` and `Diff` raise | `Dynamic.unknown_provider_raises` |
| C103 | `stables` is never sent | `Dynamic.stables_dropped` |
| C104 | the documented `ReadResult()` for a missing resource raises `TypeError` | `Dynamic.missing_raises` |
| C105 | the constructor changes the dict of the caller, a second use raises | `Dynamic.props_reuse_raises` |
| C106 | subclasses lose the type of their base class; `Resource` itself raises; colons collide | `Dynamic.inherited_type_lost`, `Dynamic.base_class_raises`, `Dynamic.colon_collision` |
| C107 | sets and shared objects are pickled differently from run to run | `Dynamic.Pickle.set_order_matters`, `Dynamic.Pickle.sharing_matters` |
| C108 | each provider deepens the pickler by a frame, so that many resources hit the recursion limit; dicts with keys of two types raise | `Dynamic.Pickle.too_many_raise`, `Dynamic.Pickle.mixed_keys_raise` |
| C109 | the methods of the Python pickler stay replaced for the whole program | `Dynamic.Pickle.patch_remains` |
| C110 | some nestings stay wrapped or raise | `Types.input_optional_kept`, `Types.optional_output_kept`, `Types.none_first_raises`, `Types.dict_union_lost` |
| C114 | the default that an output type declares is never used | `Types.output_default_ignored` |
| C115 | assigning `None` to an optional property makes instances unequal | `Types.assigned_none_unequal` |
| C116 | declarations of an undecorated base class are lost or raise; a property that overrides one of the base class is lost | `Types.redeclared_marker_raises`, `Types.overridden_property_lost` |
| C117 | subclasses of a resource class declared by annotations lose names and types; paths are not translated | `Types.subclass_names_lost`, `Types.nested_option_name_kept` |
| C118 | input types inside tuples raise or are written under Python names; keys that are no texts may clash | `Json.to_json_input_in_tuple`, `Json.to_json_dict_input_in_tuple`, `Json.to_json_two_members_of_one_name` |
| C119 | messages about resources are lost when an RPC fails, or when the loop returns first; their order is not kept | `Log.message_lost_when_rpc_fails`, `Log.message_lost_though_returned`, `Log.order_not_kept` |
| C120 | a stack whose name begins with a dash (allowed by `pkg/util/validation/stack.go:28`) cannot run; `--stack x` among the arguments changes the stack; `-h` among them reports success without running; `--` is lost | `Exec.dash_stack_refused`, `Exec.stack_overridden`, `Exec.help_reports_success`, `Exec.one_dashes` |
| C121 | a program run without configuration reads the configuration of the program around it, without secrets; `secret:keys` always has a value | `Exec.inherited_config`, `Exec.secret_keys_leak` |
| C122 | a program in a directory like `app.v2` gets the full trace | `Exec.dotted_directory_full` |
| C123 | `is_config_secret` is always false in policy packs | `Exec.policy_no_secrets` |
| C127 | a property that serialises to `None` leaves no dependency in the request although its absence depends on the resource (`absent_property_untracked`) |
| C129 | Negations proved: six of the engine's seven marks for unknowns are ordinary strings to the program, and the engine takes them for unknowns; an unknown secret Output is sent as a public unknown; a resource with a secret id or unknown URN is refused by the engine. |
| C130 | Negations proved: the engine may answer with marks for unknown booleans, numbers, lists and objects, which the program takes for strings; a `StringAsset("")` comes back as an asset made from nothing, which the program refuses with an assertion. |
| C132 | Negation proved: with `SkipNulls` and without `KeepSecrets`, a secret null is written as a null property, because nullness is checked before unwrapping. |
| C133 | four ways in which a checkpoint forgets a resource that exists (see the notes of the claim) | `read_replacement_forgets`, `unknown_create_forgets`, `failed_delete_forgets`, `targeted_delete_forgets` |
| C137 | `undangleParentResources` looks up the parents of resources that are gone among those that are left, so a child of a resource that is gone loses its grandparent (`grandparent_is_lost`), although the comment says it adopts it |
| C138 | deleting a provider before replacing it leaves what it provided listed with the old provider (`replaced_provider_is_missing`); importing a resource that was deleted to be replaced leaves it listed twice (`imported_replacement_is_listed_twice`). Both checkpoints are refused by the next update |
| C139 | a dependency on a resource that was given the former name of another becomes a dependency on the other (`reused_name_redirects`) |
| C146 | `pulumi destroy --exclude-protected` walks a Go map while it grows the set of providers in use: the provider of something that a provider needs may be missed, depending on the order of the walk. It is then a target, and the destroy is refused or, with `--target-dependents`, sets out to delete the protected resource too (`exclude_protected_may_doom_a_provider`) |
| C147 | `URN.IsValid` accepts `urn:pulumi::a::b::c`, whose `Name()` crashes (`valid_urn_may_crash`); names with `::` are cut short by `Name()` (`names_may_be_confused`) |
| C149 | `RenameStack` cuts names at `::`: of an intact checkpoint it may make one that lists a URN twice (`rename_stack_may_merge`). It leaves aliases with the old stack (`rename_stack_keeps_aliases`) |
| C150 | `pulumi state rename` updates neither the parents nor the provider references of other resources: renaming a component with children or a provider in use, like the one in its own help text, fails the integrity assertion and crashes (`state_rename_crashes_iff`). Pending operations keep the old URN |
| C153 | A changed property whose path has an unclosed bracket, as an engine-made path of a tag named `a[b` does, fails the update, even without any `replaceOnChanges` (`odd_key_fails_update`) |
| C154 | `ignoreChanges: [""]` panics (`crash_exactly`). Wildcards, texts that are not paths and paths into secrets are accepted and ignore nothing (`wildcard_ignores_nothing`, `inside_secret_not_ignored`). An element of an array that got shorter fails the update (`shorter_array_refused`). `["a", "a.b"]` may be refused where `["a.b", "a"]` is not (`order_matters`) |
| C155 | The copy of the inputs is shallow, so ignoring `a.b` changes the inputs of the program: a replacement keeps the old `a.b`, while an ignored `a` gets its new value (`replacement_differs`) |
| C157 | a program that gives a resource a new name with an alias while a resource it depends on is replaced by deletion first: the resource is deleted and then kept as unchanged, or deleted twice (`StepGen.aliases_can_keep_what_is_deleted`, `aliases_can_delete_twice`) |
| C157 | a read of a resource that was deleted ahead of a replacement deletes it twice (`StepGen.reading_what_was_deleted_deletes_twice`); a state an earlier update left awaiting replacement is kept as if it existed (`StepGen.what_awaits_replacement_can_be_kept`) |
| C158 | two resources of a program can be given the same resource of the checkpoint, one by URN and one by alias (`StepGen.aliases_can_share_a_resource`) |
| C159 | a protected resource is deleted as a dependent of one deleted before replacement, and when another is imported or read in its place; a protected leftover blocks every update (`StepGen.protected_dependents_are_deleted`, `importing_deletes_protected_resources`, `reading_deletes_protected_resources`, `protected_leftovers_block_updates`) |
| C161 | a leftover dependent, or an alias for what is being replaced, fails an assertion and ends the engine (`StepGen.leftover_dependents_crash`, `aliases_of_a_replaced_resource_crash`, `imports_by_the_same_alias_crash`) |
| C165 | comparing two unknown arrays (or two unknowns that stand for objects, assets or secrets with slices) panics; equality is not transitive with outputs among the values (`Props.unknown_arrays_end_the_program`, `outputs_break_equality`) |
| C169 | the keys to ignore are not handed down into arrays (`properties_diff.go:217`) nor secrets: there they are not ignored (`Props.ignored_keys_in_arrays`) |
| C170 | keys with dots or brackets are written as they are: entries of `a.b` and of `b` in `a` collide, and an entry can name a place that did not change (`Props.dotted_keys_collide`, `dotted_keys_mislead`). Go goes through maps in any order, so which of two colliding entries remains is not determined |
| C171 | a path of `ignoreChanges` that cannot be ignored ends in an empty answer and no error, because `diffResource` returns the `err` of another call (`step_generator.go:1381`); the update then fails with "unrecognized diff state" (`Props.refused_is_unsaid`) |
| C174 | `checkDiff` with nothing changed has an empty diff without `Sames`, so a planned deletion that does not happen is not noticed (`planned_delete_forgotten`) |
| C175 | plan.go:25-26 says all options must match, but `replaceOnChanges` and `retainOnDelete` are not in plans; `diffPropertyKeys` makes its second slice with the length of the first: index out of range, or refusal of equal sets |
| C177 | `newPlans.set` (step_generator.go:514) overwrites the deletion noted for a dependent (847-851), so the plan of a delete-before-replace with dependents refuses its own update; with aliases the deletion is recorded under the new URN (278) and checked under the old one (253) |
| C178 | a string equal to the placeholder of unknowns comes back as an unknown, known Outputs are written as unknowns, and an object with the signature key makes the state file unreadable (deployment.go:352-465, 527-700) |
| C180 | the ciphertexts of pending operations are not collected (deployment.go:247-251): they are decrypted one by one |
| C184 | a whole number with a plus sign, set in an object, reads without it: `plus_is_lost` |
| C185 | setting a plain value in an object with a secret marks the object as plain until it is saved: `plain_set_hides_the_secret`; setting below a secret makes its ciphertext plain data, or discards it: `setting_below_a_secret_unwraps_it`, `setting_below_a_value_discards_it` |
| C186 | removing a path below a secret at the top makes it a plain value of its ciphertext: `removing_below_a_secret_unwraps_it` |
| C187 | a key whose name has a colon can be set by a path and makes the configuration unreadable, or another key: `colons_break_keys` |
| C188 | an object whose secret is hidden by a plain set is copied with the ciphertext of the old key: `hidden_secrets_are_not_reencrypted` |
| C189 | `pulumi cancel` deletes the locks of processes that still run, so that a second one runs at the same time; it stops at the first lock that it cannot delete, and two that start together may both give up (`cancel_stops_early`, `both_give_up`) | `Filestate.cancel_breaks_exclusion` |
| C190 | after the setting for compression is changed the first save is not atomic: a crash leaves no state file, only a backup; if the write fails, so do later commands; a failed deletion leaves a stale file that may be read; proved without the switch | `Filestate.switching_not_atomic`, `switching_loses`, `switching_stale` |
| C191 | a stack that cannot be read, because it is corrupt or because the call fails, counts as not existing and is overwritten with an empty one; the state is in the backup | `Filestate.create_overwrites_unreadable`, `create_overwrites_on_error` |
| C192 | removing reports success when the state file could not be deleted; with both a plain and a compressed state file, the other one appears again | `Filestate.remove_reports_success`, `remove_uncovers` |
| C193 | if the listing fails, a compressed stack of the new name is overwritten; a failed deletion leaves the stack under both names | `Filestate.rename_overwrites`, `rename_doubles` |
| C196 | stacks named `.` and `..` are accepted: they are not listed, and their directories are those of others; a stack with two state files is listed twice (`listed_twice`) | `Filestate.dots_not_listed`, `dots_collide` |
| C197 | Installing anew or deleting a plugin removes its directory before it is marked as incomplete: interrupted, what is left passes for the plugin | `reinstall_breaks_plugin`, `delete_breaks_plugin` |
| C197 | Deleting a plugin deletes the lock file while another process may have it locked; a third one locks a new one, and both install at once | `delete_breaks_lock` |
| C198 | The older search takes the last listed plugin that is not older than the version asked for, also if a newer one was found before | `old_search_prefers_older` |
| C199 | Sets of plugins ignore the kind: of a language and a resource plugin with the same name and version one is forgotten | `sets_forget_kinds`, `dedup_forgets_kinds` |
| C200 | A checkpoint with the default provider of a package and a resource without provider gets a second provider with the same URN; the deployment then refuses to start. A plugin without version in the manifest crashes it | migrate_duplicates, migrate_panics |
| C201 | 1.0.0-a and 1.0.0+a, and URLs that differ in punctuation, have the same default name: two providers with one URN. URLs without scheme and packages such as foo-1.0.0 give ambiguous keys: a request gets the provider of another one | two_versions_one_name, two_urls_one_name, wrong_default_provider, slashes_of_urls |
| C202 | Diff under a former URN closes the plugin that is in use; Update leaves the plugin that was used before open | diff_by_former_name_closes, update_leaves_plugin_open |
| C203 | A plan that expects an Output allows every value once it was saved: the Output is an unknown value in the file. | `Plan.saved_plan_is_laxer` |
| C204 | The properties to be imported are looked up by ID (step.go:942-949): two imports with the same ID both get those of the first, and if the provider gives another ID they are forgotten. | `Pulumi.Import.properties_of_another`, `properties_forgotten` |
| C204 | A parent that has the type of a stack is not looked for (step.go:898-904), so that a resource can be imported below a stack that is not there: the saved state is not intact. | `Pulumi.Import.import_below_nothing` |
| C204 | What was imported with an ID that the provider has replaced cannot be imported again: instead of being passed over it is an error. | `Pulumi.Import.import_again_fails` |
| C207 | `stack change-secrets-provider passphrase` saves the new salt first (filestate/crypto.go:64-67) and the secrets that it has encrypted anew later: if it stops between, or if one value cannot be decrypted, no passphrase reads the secrets of the configuration. | `Pulumi.Secrets.secrets_stranded`, `one_bad_value` |
| C205 | A value whose nonce has not 12 bytes ends the process instead of giving an error (crypt.go:232). | `Pulumi.Secrets.bad_nonce_panics` |
| C206 | The cache is by state and does not look at the passphrase: after a state has been opened, every passphrase opens it. | `Pulumi.Secrets.opened_once` |
| C209 | A stream of events that is closed without a CancelEvent leaves the recorder waiting for ever (a receive from the closed channel is not checked, state.go:356); a refused request is only logged, so its events are missing | Pulumi.Service.done_needs_cancel |
| C210 | Of a secret that begins like another one or overlaps with it in a text, the rest is shown; which depends on the order of a Go map (events.go:210-222) | Pulumi.Display.longer_secret_shown_in_part, Pulumi.Display.overlapping_secret_shown_in_part |
| C211 | Keys of objects and paths of assets are not filtered; an output marked as secret becomes an unmarked unknown that holds its value (events.go:526-527) | Pulumi.Display.keys_and_paths_are_shown, Pulumi.Display.secret_outputs_are_shown |
| C214 | A misspelt policy name is accepted with a level; a disabled policy must still be validly configured | misspelt_policy_is_accepted, disabled_policy_is_validated |
| C215 | The service's configuration of a pack that cannot be configured is dropped silently; properties under "all" or under an unknown policy stop the update with a complaint about an empty level | required_configuration_is_dropped, properties_of_all_stop_the_update, unknown_policy_with_properties |
| C216 | A mandatory policy about the stack is looked at after everything was made | stack_violation_comes_too_late |
| C217 | The first wait is the delay times the backoff, not the delay as the comment says; an error response that is JSON without a code is reported with code 0 | first_wait_is_not_the_delay, error_without_code_loses_status |
| C219 | A step can begin after the update was cancelled (by its user or another step's failure), if its worker had tested for the cancellation just before | begins_after_cancel |
| C222 | Outputs registered with RegisterResourceOutputs are not made secret although they are named in additionalSecretOutputs (components) | Steps.registered_not_secret |
| C223 | A stack reference whose name is not known yet passes the check and fails an assertion on creation, in a preview too | `Builtin.unknown_name_ends_the_engine` |
| C223 | Asking for the resource outputs of a stack that has no snapshot dereferences nil | `Builtin.new_stack_ends_the_engine` |
| C223 | Invoking a built-in function without its string argument fails an assertion | `Builtin.bad_argument_ends_the_engine` |
| C224 | With a path on the way to another (`a` and `a.b`) what is displayed depends on map iteration order | `Detailed.overlap_depends_on_order` |
| C224 | With entries of inputs and of outputs below one deleted property, the value shown as deleted depends on map iteration order | `Detailed.mixed_depends_on_order` |
| C224 | A detailed diff with an empty path fails an assertion in the display | `Detailed.empty_path_ends_the_program` |
| C224 | Entries whose path begins with an index are not displayed | `Detailed.index_paths_not_shown` |
| C225 | A cancellation during the deletions (all of a destroy) is not noticed: what is left is not deleted and the update succeeds. The plan is checked after a failed step although the comment at 311-313 says it is not, and what is left of it is reported in place of the failure; likewise targets after a cancellation | `Verdict.canceled_deletes_succeed`, `failed_step_blames_the_plan`, `canceled_blames_the_target` |
| C226 | The messages on `^C` are built with `engine.NewEvent` and never sent, so that the user is not told that a second one terminates and may orphan resources; a `^C` that comes while another is acted upon is lost | `Interrupt.never_shown`, `Interrupt.interrupt_lost` |
| C226 | A step that completes after the second `^C` is not in the checkpoint (meant so); what a terminated update ends with depends on timing | `Interrupt.terminated_loses_steps`, `Interrupt.ending_depends` |
| C227 | Where the default organization cannot be read, the name shown for a stack of the user is refused when read; `//dev` is read as `dev`; owner and project are not checked | `CloudRef.shown_is_refused`, `CloudRef.empty_parts`, `CloudRef.owner_unchecked` |
| C228 | Entries of different resources with the same time and message are taken for duplicates, so that which is given depends on timing; beside an error the logs are not sorted | `OpLogs.other_resources_lost`, `OpLogs.depends_on_order`, `OpLogs.unsorted_beside_errors` |

## Axioms per theorem

Generated by `scripts/axioms.py`.

<!-- axioms -->

| Axioms | Theorems (without the prefix `Pulumi.`) |
|---|---|
| none | `Display.refused_without_terminal`, `Filestate.cancel_deletes`, `Filestate.cancel_stops_early`, `Interrupt.ending_depends`, `Interrupt.interrupt_lost`, `Interrupt.terminated_loses_steps`, `Policy.Enforce.stack_violation_comes_too_late`, `Providers.diff_by_former_name_closes`, `Server.settings_spec`, `Service.Retry.error_without_code_loses_status`, `Steps.registered_outputs`, `Urn.alias_urn`, `Urn.nameUnder_unique` |
| propext | `Async.future_write_once`, `Builtin.contains_iff`, `Builtin.diff_iff`, `Builtin.diff_unknown`, `Checkpoint.kept_known`, `Checkpoint.known_outputs_are_lost`, `Checkpoint.loads_unique`, `Checkpoint.not_every_file_is_decrypted_at_once`, `Checkpoint.not_every_value_comes_back`, `Checkpoint.the_rest_is_public`, `Checkpoint.what_is_read_is_sound`, `CloudRef.shown_bare`, `CloudRef.shown_in_full`, `CloudRef.shown_is_refused`, `CloudRef.too_many_parts`, `Conf.bags_share_keys`, `Conf.fork_inherits`, `Conf.set_then_get`, `ConfigMap.plain_configuration_needs_no_key`, `ConfigMap.saving_finds_the_secrets`, `ConfigMap.value_round_trips`, `Construct.dependency_parent_rejected`, `Construct.remote_providers_lost`, `Construct.stack_transformations_apply_partial`, `Display.close_delivers_all`, `Display.close_returns`, `Display.delivered_in_order`, `Display.events_tell_nothing_of_secrets`, `Display.held_to_the_plan`, `Display.no_more_after_close`, `Display.nothing_dropped_before_close`, `Display.preview_first`, `Display.previews_change_nothing`, `Display.senders_never_wait`, `Dynamic.colon_collision`, `Dynamic.inherited_type_lost`, `Exec.policy_exit`, `Filestate.both_give_up`, `Filestate.cancel_breaks_exclusion`, `Filestate.cancel_only`, `Filestate.create_exists`, `Filestate.create_overwrites_on_error`, `Filestate.create_overwrites_unreadable`, `Filestate.lock_excludes_partial`, `Filestate.remove_refuses`, `Filestate.remove_reports_success`, `Filestate.remove_uncovers`, `Filestate.rename_doubles`, `Filestate.rename_overwrites`, `Filestate.rename_refuses_partial`, `Filestate.stale_lock_blocks`, `Filestate.switching_loses`, `Filestate.switching_not_atomic`, `Filestate.switching_stale`, `Flow.unsecret_reveals`, `Import.import_again_fails`, `Import.not_a_provider_panics`, `Import.properties_forgotten`, `Import.properties_of_another`, `Inline.crashed_is_failure`, `Inline.empty_run_error_is_success`, `Inline.error_says_why`, `Inline.exit_code`, `Inline.run_error_message`, `Inline.unavailable_is_success`, `Interrupt.interrupt_received`, `Invoke.chained_merge_loses`, `Invoke.merge_loses_version`, `Invoke.provider_reference`, `Invoke.unnamed_provider_reference`, `Log.message_lost_though_returned`, `Log.order_not_kept`, `Loop.failure_waits`, `Loop.later_failure_reported`, `Loop.poisoned_request`, `Loop.unstarted_rpc_missed`, `Loop.work_left_behind`, `Mocks.other_features_off`, `OpLogs.depends_on_order`, `OpLogs.other_resources_lost`, `OpLogs.unsorted_beside_errors`, `Options.chained_instance_merge_loses_partial`, `Options.instance_merge_partial`, `Options.tuple_lists_merged`, `Options.tuple_providers_lost`, `Output.all_mixed`, `Output.containsUnknowns_iff`, `Paths.covers_trans`, `Paths.replacing_keeps_change`, `Paths.star_covers`, `Plan.constrainedTo_iff`, `Plan.own_plan_refuses_aliases`, `Plan.planned_delete_forgotten`, `Plugins.dedup_forgets_kinds`, `Plugins.delete_breaks_lock`, `Plugins.delete_breaks_plugin`, `Plugins.install_can_complete`, `Plugins.install_excludes_partial`, `Plugins.reinstall_breaks_plugin`, `Plugins.sets_forget_kinds`, `Policy.Enforce.failed_step_skips_stack_policies`, `Policy.all_overrides_the_packs_own`, `Policy.bare_level_is_refused_from_the_service`, `Policy.disabled_policy_is_validated`, `Policy.misspelt_policy_is_accepted`, `Policy.properties_of_all_stop_the_update`, `Policy.required_configuration_is_dropped`, `Policy.unknown_policy_with_properties`, `Props.outputs_break_equality`, `Props.unknown_arrays_end_the_program`, `Providers.update_leaves_plugin_open`, `Registry.moduleKey_collision`, `Run.import_cleans_partial`, `Run.import_leaves_file`, `Secrets.replaced_at_terminal`, `Secrets.typed_twice`, `Secrets.where_from`, `Server.others_at_once`, `Service.Retry.error_text_has_status`, `Service.every_request_answered`, `Service.failed_for_good`, `Settings.answer_recorded`, `Settings.dry_run_read`, `Settings.mock_names_ignored_in_threads`, `Settings.new_settings_ask`, `Settings.organization_read`, `Settings.reset_forgets_root`, `Settings.settings_isolated_partial`, `Settings.task_inherits`, `Settings.unset_context_sees_others`, `Steps.components_ask_nothing`, `Steps.delete_asks`, `Steps.delete_outcome`, `Steps.failure_passed`, `Steps.partial_update`, `Steps.protected_kept`, `Steps.read_exists`, `Steps.registered_not_secret`, `Steps.same_keeps`, `Steps.twice_is_forgotten`, `Types.assigned_none_unequal`, `Types.nested_option_name_kept`, `Types.output_default_ignored`, `Types.overridden_property_lost`, `Types.redeclared_marker_raises`, `Urn.alias_none_rejected`, `Urn.all_aliases_no_parent`, `Verdict.passed_on` |
| propext, Quot.sound | `Builtin.check_accepts_iff`, `Builtin.check_refuses`, `Builtin.check_type`, `Checkpoint.cached_ciphertexts_open`, `Checkpoint.each_secret_is_encrypted_once`, `Checkpoint.only_known_versions_are_read`, `Checkpoint.secrets_are_not_told`, `Checkpoint.secrets_need_a_manager`, `Checkpoint.values_are_written`, `CloudRef.accepted_is_legal`, `CloudRef.bare_name`, `CloudRef.empty_parts`, `CloudRef.full_name`, `CloudRef.owner_and_name`, `CloudRef.shown_injective`, `CloudRef.shown_is_read_back`, `Conf.setAll_isolates`, `ConfigMap.copied_configuration_decrypts_the_same`, `ConfigMap.copied_values_read_the_same`, `DepGraph.unprotect_keeps_intact`, `DepGraph.untrusted_deletes_are_serial`, `Display.no_secret_is_left`, `Display.only_secrets_are_replaced`, `Display.others_are_unchanged`, `Dynamic.base_class_raises`, `Dynamic.diff_reported`, `Exec.told_of_end`, `Filestate.create_frame`, `Filestate.create_new`, `Filestate.page_length`, `Filestate.remove_frame`, `Filestate.remove_removes`, `Filestate.renameHistory_keeps`, `Filestate.renameHistory_moves`, `Filestate.rename_completes`, `Filestate.rename_keeps_partial`, `Filestate.save_atomic_partial`, `Filestate.save_backup`, `Filestate.save_completes`, `Filestate.save_durable`, `Filestate.save_frame`, `Filestate.save_read`, `Filestate.update_history_partial`, `Filestate.update_kept_partial`, `Filestate.update_never_lost_partial`, `Import.import_below_nothing`, `Import.made_is_saved`, `Invoke.merge_partial`, `Invoke.merge_total`, `Local.last_part_unique`, `Log.call_effects`, `Log.message_lost_when_rpc_fails`, `Loop.failure_poisons_later_requests`, `Loop.program_exception_reported`, `OpLogs.failures_given`, `OpLogs.logs_put_together`, `OpLogs.messages_whatever_the_order`, `OpLogs.same_time_keeps_order`, `Options.merge_keeps_arguments`, `Output.apply_associative`, `Output.apply_deps`, `Output.apply_deps_on_failure`, `Output.apply_preview`, `Output.apply_preview_with_unknowns`, `Output.apply_right_identity`, `Output.apply_secret`, `Output.apply_settles`, `Output.apply_update`, `Output.apply_update_shows`, `Output.chain_secret`, `Output.fromInput_empty_input`, `Output.join_loses_secret`, `Output.join_outputs_partial`, `Output.known_has_no_unknown`, `Output.lifted_known`, `Output.lifted_unknown`, `Output.secret_spec`, `Output.unsecret_spec`, `Paths.contains_iff`, `Plan.resolves_of_eqU`, `Plugins.dedup_exact`, `Plugins.default_source`, `Policy.accepted_iff`, `Policy.nothing_else_is_sent`, `Policy.refused_with_all_complaints`, `Policy.unsupported_file_stops`, `Policy.used_properties_are_valid`, `Props.comparison_works`, `Props.diff_works`, `Providers.denied_iff_off`, `Providers.let_through_iff`, `Providers.map_built_iff`, `Providers.migrate_idempotent`, `Providers.migrate_intact_partial`, `Providers.migrate_keeps`, `Providers.migrate_new`, `Providers.newReg_loads`, `Providers.newReg_succeeds`, `Providers.registry_never_stuck_partial`, `Providers.registry_refines_partial`, `Pump.done_but_blocked`, `Pump.waits_nest`, `Register.prompt_dependencies_checked`, `Resolve.list_length`, `Resolve.property_naming`, `Resolve.scalar_values`, `Run.stripped_one`, `Run.version_text`, `Server.can_finish`, `Server.in_order`, `Server.leftover_sees_other_settings`, `Server.no_lost_wakeup`, `Server.own_settings`, `Server.released`, `Server.serialised`, `Service.Retry.others_are_sent_once`, `Service.Retry.retries`, `Service.Retry.waits_grow`, `Service.comes_to_an_end`, `Service.given_is_fresh`, `Service.lease_has_not_run_out`, `Service.newest_token`, `Settings.mock_keeps_answers`, `Settings.not_asked_again`, `Settings.own_monitor_answers_partial`, `Snapshot.checkpoint_intact_partial`, `Snapshot.close_writes_everything`, `Snapshot.crash_safe_partial`, `Snapshot.create_in_progress_is_pending_partial`, `Snapshot.failed_delete_forgets`, `Snapshot.failed_step_changes_no_resource`, `Snapshot.grandparent_is_lost`, `Snapshot.imported_replacement_is_listed_twice`, `Snapshot.interrupted_create_stays`, `Snapshot.normalize_fails_iff`, `Snapshot.normalize_renames`, `Snapshot.normalize_settles_partial`, `Snapshot.read_replacement_forgets`, `Snapshot.rebuild_keeps_intact`, `Snapshot.rebuild_repairs_dependencies`, `Snapshot.rebuild_repairs_parents`, `Snapshot.replaced_provider_is_missing`, `Snapshot.reused_name_redirects`, `Snapshot.skipped_create_is_not_listed`, `Snapshot.targeted_delete_forgets`, `Snapshot.unknown_create_forgets`, `Snapshot.verify_iff_intact`, `Snapshot.verify_says_why`, `Steps.asks_once`, `Steps.began_first`, `Steps.created`, `Steps.created_has_id`, `Steps.markAll_eq`, `Steps.new_urn`, `Steps.old_kept`, `Steps.pre_failed`, `Steps.preview_changes_nothing`, `Steps.read_marked`, `Steps.read_outcome`, `Steps.recorded_secret`, `Steps.recorded_spec`, `Steps.refresh_drops_iff`, `Steps.refresh_keeps`, `Steps.refresh_unhealthy`, `Steps.refreshed`, `Steps.replaced_marked`, `Steps.terminated_writes_nothing`, `Steps.told_after_recorded`, `Steps.twice_not`, `Steps.twice_refused`, `Steps.update_keeps_id`, `Steps.updated`, `Types.bare_dict_union`, `Types.dict_union_lost`, `Types.input_optional_kept`, `Types.none_first_raises`, `Types.optional_output_kept`, `Types.subclass_names_lost`, `Urn.alias_stack_project_ignored`, `Urn.all_aliases_count`, `Verdict.canceled_blames_the_target`, `Verdict.canceled_deletes_succeed`, `Verdict.failed_step_blames_the_plan`, `Workers.after_cancel`, `Workers.after_cancel_total`, `Workers.at_most_workers`, `Workers.awaited_first`, `Workers.begins_after_cancel`, `Workers.begins_after_those_before`, `Workers.begun_once`, `Workers.closed_why`, `Workers.ends`, `Workers.failure_cancels`, `Workers.in_order`, `Workers.progress`, `Workers.workersOf_spec` |
| propext, Classical.choice, Quot.sound | `Async.every_schedule_completes`, `Async.schedule_independent`, `Builtin.accepted_crash_iff`, `Builtin.bad_argument_ends_the_engine`, `Builtin.create_iff`, `Builtin.create_names`, `Builtin.create_no_crash`, `Builtin.create_unknown`, `Builtin.get_resource_iff`, `Builtin.get_resource_unknown`, `Builtin.invoke_unknown`, `Builtin.new_stack_ends_the_engine`, `Builtin.read_iff`, `Builtin.read_outputs_as_create`, `Builtin.resource_outputs`, `Builtin.secret_names`, `Builtin.secret_names_order`, `Builtin.secret_names_unique`, `Builtin.unknown_name_ends_the_engine`, `Checkpoint.bulk_decryption_is_enough`, `Checkpoint.json_faithful`, `Checkpoint.old_files_are_read`, `Checkpoint.oldest_files_are_read`, `Checkpoint.reading_after_bulk_decryption_is_reading`, `Checkpoint.reserved_names_make_files_unreadable`, `Checkpoint.resources_are_decrypted_at_once`, `Checkpoint.shown_secrets_are_told`, `Checkpoint.states_come_back_partial`, `Checkpoint.states_without_secrets_come_back_partial`, `Checkpoint.unchanged_secrets_keep_their_ciphertexts`, `Checkpoint.values_come_back_partial`, `Checkpoint.writing_again_encrypts_nothing`, `Cli.comma_splits`, `Cli.debug_commands`, `Cli.empty_home_differs`, `Cli.env_precedence`, `Cli.get_config_partial`, `Cli.message_makes_interactive`, `Cli.operation_reads_partial`, `Cli.parallel_zero_lost`, `Cli.policy_packs_partial`, `Cli.remove_all_config_partial`, `Cli.remove_config_partial`, `Cli.remove_help_removes_nothing`, `Cli.same_home_partial`, `Cli.select_flag_like`, `Cli.set_all_config_partial`, `Cli.set_all_cuts_key`, `Cli.set_config_partial`, `Cli.stack_commands_partial`, `Cli.verbosity_raises`, `CloudRef.owner_unchecked`, `Conf.bad_environment`, `Conf.bags_separate`, `Conf.bags_separate_environment`, `Conf.bags_share_environment`, `Conf.convert_reads`, `Conf.envKey_shared_iff`, `Conf.envKey_spec`, `Conf.finds_total`, `Conf.getConfig_resolves`, `Conf.get_spec`, `Conf.null_object_missing`, `Conf.require_spec`, `Conf.resolves_total`, `Conf.secret_getters_agree`, `Conf.secret_getters_secret`, `Conf.secret_keys`, `Conf.set_in_task_leaks`, `Conf.set_is_read`, `ConfigMap.colons_break_keys`, `ConfigMap.hidden_secrets_are_not_reencrypted`, `ConfigMap.key_round_trips_iff`, `ConfigMap.map_round_trips`, `ConfigMap.not_a_path`, `ConfigMap.old_keys_are_read`, `ConfigMap.path_without_a_name`, `ConfigMap.plain_set_hides_the_secret`, `ConfigMap.plus_is_lost`, `ConfigMap.remove_changes_nothing_else`, `ConfigMap.removed_elements_change_nothing_else`, `ConfigMap.removed_elements_close_up`, `ConfigMap.removed_is_gone`, `ConfigMap.removing_below_a_secret_unwraps_it`, `ConfigMap.secrets_are_decrypted`, `ConfigMap.set_changes_nothing_else`, `ConfigMap.set_object_then_get`, `ConfigMap.set_succeeds`, `ConfigMap.set_then_get`, `ConfigMap.setting_below_a_secret_unwraps_it`, `ConfigMap.setting_below_a_value_discards_it`, `ConfigMap.the_rest_is_kept`, `ConfigMap.the_shape_is_kept`, `ConfigMap.what_contains_is_an_object`, `Construct.explicit_provider_misfiled`, `Construct.late_stack_transformation_missed`, `Construct.protection_inherited`, `Construct.provider_chosen`, `Construct.providers_offered`, `Construct.stack_registration`, `Construct.transformations_run`, `Construct.wrong_provider_rejected`, `DepGraph.batches_are_exact`, `DepGraph.batches_respect_dependencies`, `DepGraph.deletes_what_the_program_dropped`, `DepGraph.deletions_go_backwards`, `DepGraph.dependent_replacements_are_exact`, `DepGraph.dependents_are_exact`, `DepGraph.dependents_are_in_order`, `DepGraph.dependents_are_scanned`, `DepGraph.destroy_deletes_everything`, `DepGraph.exclude_protected_destroys_the_rest`, `DepGraph.exclude_protected_may_doom_a_provider`, `DepGraph.exclude_protected_spares_partial`, `DepGraph.locate_is_exact`, `DepGraph.pending_deletes_are_exact`, `DepGraph.serial_deletes_respect_dependencies`, `DepGraph.state_delete_is_exact`, `DepGraph.state_delete_keeps_intact`, `DepGraph.targeted_deletes_are_exact`, `DepGraph.targeted_destroy_leaves_an_intact_stack`, `DepGraph.users_of_a_replaced_provider_go`, `Deps.aliases_unique_ordered`, `Deps.declare_refines_history`, `Deps.declare_refused_iff`, `Deps.declared_acyclic`, `Deps.expand_complete`, `Deps.expand_exact`, `Deps.prepared_dependencies_complete`, `Deps.property_dependencies_complete`, `Deps.refused_would_close_cycle`, `Deps.waiting_never_deadlocks`, `Detailed.displayed_from_entries`, `Detailed.displayed_iff`, `Detailed.empty_path_ends_the_program`, `Detailed.entries_commute`, `Detailed.has_meaning`, `Detailed.index_paths_not_shown`, `Detailed.mixed_depends_on_order`, `Detailed.nothing_lost`, `Detailed.order_irrelevant`, `Detailed.overlap_depends_on_order`, `Detailed.property_of`, `Detailed.shows_kept`, `Detailed.shows_meaning`, `Detailed.shows_only`, `Detailed.translated`, `Display.brackets_matter`, `Display.byteLen_is_utf8`, `Display.config_secrets_are_not_in_events`, `Display.keys_and_paths_are_shown`, `Display.longer_secret_shown_in_part`, `Display.nothing_without_consent`, `Display.overlapping_secret_shown_in_part`, `Display.secret_outputs_are_shown`, `Display.shapes_kept_kvs`, `Display.short_secrets_are_shown`, `Display.success_is_real`, `Dynamic.Pickle.mixed_keys_raise`, `Dynamic.Pickle.patch_remains`, `Dynamic.Pickle.pickled_alike_partial`, `Dynamic.Pickle.pickler_restored`, `Dynamic.Pickle.same_data_same_bytes`, `Dynamic.Pickle.set_order_matters`, `Dynamic.Pickle.sharing_matters`, `Dynamic.Pickle.too_many_raise`, `Dynamic.check_reports`, `Dynamic.construct_registers`, `Dynamic.create_reports`, `Dynamic.default_check_echo`, `Dynamic.default_update_empties`, `Dynamic.failures_reported`, `Dynamic.inputs_reach_provider`, `Dynamic.missing_raises`, `Dynamic.new_provider_used_partial`, `Dynamic.props_reuse_raises`, `Dynamic.provider_kept`, `Dynamic.read_reports_partial`, `Dynamic.stables_dropped`, `Dynamic.type_names_distinct_partial`, `Dynamic.unknown_provider_raises`, `Dynamic.update_reports`, `Engine.answer_seen`, `Engine.answers_shown`, `Engine.data_comes_back`, `Engine.dropped_output_echo`, `Engine.empty_asset_fails`, `Engine.empty_text_comes_back`, `Engine.engine_echo`, `Engine.engine_reads`, `Engine.means_unique`, `Engine.properties_echo`, `Engine.reader_gets_wanted`, `Engine.reader_gets_wanted_properties`, `Engine.request_read`, `Engine.reserved_read_as_unknown`, `Engine.response_seen`, `Engine.secret_comes_back`, `Engine.secret_id_refused`, `Engine.secret_null_stays`, `Engine.shown_unique`, `Engine.unknown_secret_read_as_public`, `Engine.unknown_seen_as_text`, `Engine.unknown_urn_refused`, `Engine.writer_refuses_unknowns`, `Engine.writer_sends_accepted`, `Events.delivered_all_partial`, `Events.delivered_in_order`, `Events.detailed_diff_never_shown`, `Events.event_shown_partial`, `Events.event_shown_plain_partial`, `Events.policy_resource_never_shown`, `Events.preview_finds_partial`, `Events.preview_summary`, `Events.preview_summary_lost`, `Events.sample_preview`, `Events.stream_never_shown`, `Events.torn_line_loses`, `Events.unknown_operation_raises`, `Events.watcher_ends_partial`, `Events.watcher_never_ends`, `Exec.config_absent_partial`, `Exec.config_arrives`, `Exec.dash_argument_refused`, `Exec.dash_stack_refused`, `Exec.directory_frames_kept_partial`, `Exec.dotted_directory_full`, `Exec.file_frames_kept`, `Exec.file_frames_only`, `Exec.help_reports_success`, `Exec.inherited_config`, `Exec.one_dashes`, `Exec.policy_config`, `Exec.policy_no_secrets`, `Exec.policy_settings`, `Exec.request_runs_partial`, `Exec.secret_keys_leak`, `Exec.shown_suffix`, `Exec.stack_overridden`, `Exec.success_iff`, `Exec.two_dashes`, `Filestate.concurrent_updates_safe_partial`, `Filestate.dots_collide`, `Filestate.dots_not_listed`, `Filestate.historyDir_exact_partial`, `Filestate.listed_twice`, `Filestate.localStacks_exact_partial`, `Filestate.lockPath_inj_partial`, `Filestate.lock_keeps`, `Filestate.lock_serializes_partial`, `Filestate.movedName_exact_partial`, `Filestate.pages_all`, `Filestate.pages_sorted`, `Filestate.path_inj_partial`, `Filestate.stackPath_picks`, `Flow.absent_property_untracked`, `Flow.dependencies_sound`, `Flow.program_shows`, `Flow.request_dependencies_sound_partial`, `Flow.request_secrets_contained`, `Flow.secrets_contained`, `Flow.unrelated_outputs`, `Flow.unrelated_unaffected`, `Graph.contains_unknowns_exact`, `Graph.massage_faithful_partial`, `Graph.massage_loses_shared`, `Graph.massage_total`, `Import.asked_properties_partial`, `Import.import_complete`, `Import.import_intact_partial`, `Import.import_keeps_and_adds`, `Inline.cleanup_failure_poisons`, `Inline.concurrent_failure_swapped`, `Inline.empty_config_keeps_previous`, `Inline.empty_configs_shared`, `Inline.exec_config`, `Inline.failed_rpc_is_reported_partial`, `Inline.failed_run_raises_partial`, `Inline.response_failure_partial`, `Inline.returned_run_complete_partial`, `Inline.run_config_partial`, `Inline.run_secret_keys_partial`, `Inline.sequential_runs_partial`, `Inline.stale_secret_keys`, `Inline.swapped_not_alone`, `Interrupt.early_end_needs_two`, `Interrupt.interrupts_work`, `Interrupt.never_shown`, `Interrupt.one_interrupt_is_safe`, `Interrupt.untouched`, `Interrupt.written_is_a_prefix`, `Invoke.bad_arguments_raise`, `Invoke.call_empty`, `Invoke.call_request`, `Invoke.call_result`, `Invoke.call_settles`, `Invoke.invoke_raises`, `Invoke.invoke_request`, `Invoke.invoke_returns`, `Invoke.provider_used_partial`, `Invoke.reused_options`, `Json.json_strings_round_trip`, `Json.not_every_object_said`, `Json.to_json_dict_input_in_tuple`, `Json.to_json_dict_inputs_in_tuple`, `Json.to_json_injective`, `Json.to_json_input_in_tuple`, `Json.to_json_is_one_ascii_line`, `Json.to_json_says_the_object_partial`, `Json.to_json_two_members_of_one_name`, `Json.to_json_writes`, `Local.all_config_read`, `Local.cli_project_unreadable`, `Local.current_stack_read`, `Local.history_entries_partial`, `Local.history_hidden_raises`, `Local.history_running_raises`, `Local.inline_project`, `Local.inline_project_given`, `Local.inline_project_kept`, `Local.install_plugin_partial`, `Local.list_plugins_partial`, `Local.list_stacks_read`, `Local.local_project`, `Local.no_source_raises`, `Local.number_makes_unreadable`, `Local.object_destroys_json`, `Local.object_makes_unreadable`, `Local.project_file_without_nulls`, `Local.project_independent`, `Local.project_settings_accepted_iff`, `Local.project_settings_kept`, `Local.project_settings_round_partial`, `Local.remove_plugin_partial`, `Local.resave_deletes`, `Local.resave_keeps_partial`, `Local.reused_options_keep_project`, `Local.reused_options_overwrite_local`, `Local.save_writes_one`, `Local.settings_shared`, `Local.stack_settings_readable_iff`, `Local.stack_settings_round_partial`, `Local.stacks_independent`, `Local.structured_lost`, `Local.unused_plugin_raises`, `Local.version_taken_for_name`, `Log.messages_are_what_was_logged`, `Log.messages_arrive_partial`, `Log.plain_messages_arrive_at_once`, `Loop.failed_rpc_reported`, `Loop.only_failure_reported_partial`, `Loop.outstanding_awaited_partial`, `Loop.quiet_terminates`, `Loop.raised_cause`, `Loop.requests_independent_partial`, `Loop.returned_complete`, `Mocks.answers_from_mocks`, `Mocks.call_answered_partial`, `Mocks.calls_total`, `Mocks.grandparents_confused`, `Mocks.lookup_registered`, `Mocks.lookup_unknown`, `Mocks.mocks_called`, `Mocks.mocks_see_inputs`, `Mocks.mocks_see_no_output`, `Mocks.mocks_see_references`, `Mocks.mocks_see_secrets`, `Mocks.none_failures_raise`, `Mocks.program_sees_state`, `Mocks.shallow_urn`, `Mocks.urns_differ_partial`, `Options.chained_instance_merge`, `Options.merge_assoc`, `Options.merge_contents`, `Output.all_args`, `Output.all_kwargs`, `Output.apply_left_identity`, `Output.concat_spec`, `Output.fromInput_unwraps_partial`, `Output.join_inputs_partial`, `Output.join_inputs_witness`, `Output.join_loses_secret_witness`, `Paths.bad_paths`, `Paths.changes_shown`, `Paths.covers_prefix`, `Paths.crash_exactly`, `Paths.delete_then_get`, `Paths.dots_tolerated`, `Paths.empty_path_unset`, `Paths.goal_overwritten`, `Paths.goal_unchanged`, `Paths.ignored_kept`, `Paths.inner_path_misses_outer_change`, `Paths.inside_secret_not_ignored`, `Paths.odd_key_fails_update`, `Paths.old_inputs_kept`, `Paths.order_matters`, `Paths.others_unchanged`, `Paths.path_continues`, `Paths.path_round_trip`, `Paths.path_text_injective`, `Paths.quotes_optional`, `Paths.refused_exactly`, `Paths.replace_fails_exactly`, `Paths.replaced_exactly`, `Paths.replacement_differs`, `Paths.secrets_opaque`, `Paths.set_same`, `Paths.set_then_get`, `Paths.set_works_iff`, `Paths.shorter_array_refused`, `Paths.unprintable_names_lost`, `Paths.wildcard_ignores_nothing`, `Paths.wildcard_spellings`, `Plan.eqU_of_resolves`, `Plan.inputs_keep_to_the_plan_partial`, `Plan.more_secret_outputs_crash`, `Plan.nothing_unplanned`, `Plan.options_not_planned`, `Plan.own_goals_go_through`, `Plan.own_plan_refuses_dependents`, `Plan.own_plans_allow_updates_partial`, `Plan.plan_allows_its_own_outcomes`, `Plan.plan_allows_its_own_steps`, `Plan.plan_secrets_are_not_told`, `Plan.planned_deletions_are_not_registered`, `Plan.planned_registrations_go_through`, `Plan.plans_come_back_partial`, `Plan.previews_show_more`, `Plan.previews_show_what_updates_do`, `Plan.previews_show_whole_updates`, `Plan.registrations_keep_to_the_plan_partial`, `Plan.same_secret_outputs_refused`, `Plan.saved_plan_allows_the_same_partial`, `Plan.saved_plan_is_laxer`, `Plan.unchanged_but_refused`, `Plan.unplanned_registrations_change_nothing`, `Plan.updates_keep_to_the_plan`, `Plugins.defaults_deterministic`, `Plugins.defaults_exact`, `Plugins.has_plugin_is_complete_partial`, `Plugins.installed_stays_partial`, `Plugins.newest_with_version_partial`, `Plugins.newest_without_version`, `Plugins.old_search_prefers_older`, `Plugins.select_deterministic`, `Plugins.select_finds`, `Plugins.select_newest`, `Policy.Enforce.advisory_violations_do_not_matter`, `Policy.Enforce.all_violations_are_reported`, `Policy.Enforce.preview_steps_all`, `Policy.Enforce.preview_tells_of_update`, `Policy.Enforce.stopping_violation_is_reported`, `Policy.Enforce.succeeds_iff`, `Policy.Enforce.update_steps_only_what_complies`, `Policy.api_accepted_iff`, `Policy.api_and_file_agree`, `Policy.bad_configuration_stops`, `Policy.file_accepted_iff`, `Policy.file_levels`, `Policy.file_read`, `Policy.level_of_policy`, `Policy.names_of_config`, `Policy.order_does_not_matter`, `Policy.other_names_do_not_matter`, `Policy.packs_are_configured`, `Policy.property_of_policy`, `Props.answers_are_kept`, `Props.detailed_misses_nothing_partial`, `Props.detailed_names_changes_partial`, `Props.diff_patches`, `Props.diff_sorts`, `Props.dotted_keys_collide`, `Props.dotted_keys_mislead`, `Props.equal_iff_same`, `Props.equal_refl`, `Props.equal_symm`, `Props.equal_trans`, `Props.ignored_keys_in_arrays`, `Props.ignored_keys_stay_out_partial`, `Props.no_diff_iff_equal`, `Props.only_ignored_is_same`, `Props.refused_is_unsaid`, `Props.unknown_is_decided_partial`, `Props.unknown_spares_ignored_partial`, `Providers.default_name_legal`, `Providers.denied_reference`, `Providers.keys_separate_partial`, `Providers.migrate_duplicates`, `Providers.migrate_panics`, `Providers.names_separate_partial`, `Providers.never_panics`, `Providers.own_default_provider_partial`, `Providers.registered_as_requested`, `Providers.same_default_provider`, `Providers.slashes_of_urls`, `Providers.two_urls_one_name`, `Providers.two_versions_one_name`, `Providers.wrong_default_provider`, `Pump.never_breaks`, `Pump.one_place`, `Pump.own_task`, `Pump.ran_in_order`, `Pump.wait_ends_partial`, `Register.arguments_sent`, `Register.coroutine_entry_fails_later`, `Register.coroutine_fails`, `Register.dependencies_partial`, `Register.dependencies_recorded`, `Register.named_inputs_only`, `Register.named_inputs_partial`, `Register.outputs_sent`, `Register.path_not_translated`, `Register.property_dependencies`, `Register.read_id_partial`, `Register.read_none_id`, `Register.read_secret_id`, `Register.read_unknown_id`, `Register.reads`, `Register.registers`, `Register.request_carries`, `Register.secret_outputs_named`, `Registry.acceptance_is_not_the_order`, `Registry.answer_unique`, `Registry.lookup_best`, `Registry.moduleKey_injective`, `Registry.register_rejects`, `Registry.unparsable_version`, `Registry.wildcard_alone`, `Rename.names_may_be_confused`, `Rename.provider_urn_iff`, `Rename.reference_read_then_written`, `Rename.reference_round_trip`, `Rename.rename_may_be_final`, `Rename.rename_replaces_name`, `Rename.rename_stack_back`, `Rename.rename_stack_checks`, `Rename.rename_stack_keeps_aliases`, `Rename.rename_stack_may_crash`, `Rename.rename_stack_may_merge`, `Rename.rename_stack_moves_everything_partial`, `Rename.rename_stack_same`, `Rename.state_rename_checks_urn`, `Rename.state_rename_crashes_iff`, `Rename.state_rename_refuses`, `Rename.state_rename_renames`, `Rename.urn_determines_fields`, `Rename.urn_fields_read_back`, `Rename.urn_type_read_back`, `Rename.valid_urn_iff`, `Rename.valid_urn_may_crash`, `Resolve.absent_property`, `Resolve.engine_value`, `Resolve.failure_reaches_outputs`, `Resolve.input_value`, `Resolve.late_failure_reaches_outputs`, `Resolve.missing_value`, `Resolve.never_resolved_twice`, `Resolve.no_reply_leaves_pending`, `Resolve.null_output_shows_input`, `Resolve.output_dependencies`, `Resolve.output_found`, `Resolve.outputs_resolved_once`, `Resolve.own_values`, `Resolve.read_bad_response_hangs`, `Resolve.read_failure_reaches_outputs`, `Resolve.read_resolved_once`, `Run.create_or_select_partial`, `Run.create_or_select_races`, `Run.empty_version_raises`, `Run.error_class`, `Run.error_class_unique`, `Run.history_default_ten`, `Run.history_pages_partial`, `Run.info_newest`, `Run.nested_secret_shown`, `Run.output_delivered`, `Run.outputs_partial`, `Run.outputs_race`, `Run.select_only_if_exists`, `Run.sentinel_marked`, `Run.stack_errors_from_stderr`, `Run.version_check_partial`, `Run.waits_for_exit`, `Secrets.bad_nonce_panics`, `Secrets.changed`, `Secrets.checkpoint_stays_readable`, `Secrets.decrypt_encrypt`, `Secrets.decrypts_only_own`, `Secrets.decrypts_only_values`, `Secrets.first_right_passphrase`, `Secrets.locked`, `Secrets.managers_agree`, `Secrets.managers_have_the_key`, `Secrets.new_passphrase`, `Secrets.one_bad_value`, `Secrets.opened_once`, `Secrets.right_and_wrong`, `Secrets.secrets_stranded`, `Secrets.wrong_passphrase_locks`, `Server.construct_response_spec`, `Server.dependencies_kept_partial`, `Server.dependency_lost`, `Server.dependent_input`, `Server.inputs_arrive`, `Server.options_partial`, `Server.parent_dropped`, `Server.plain_input`, `Server.provider_reference`, `Server.response_spec`, `Server.secret_input`, `Server.unknown_urn_fails`, `Service.Retry.call_succeeds_iff`, `Service.Retry.calls_are_sent_at_most_four_times`, `Service.Retry.first_wait_is_not_the_delay`, `Service.Retry.waits_are_bounded`, `Service.done_means_recorded`, `Service.done_needs_cancel`, `Service.never_stuck`, `Service.numbers_are_unique`, `Service.recorded_once`, `Service.renewed_when_stale`, `Service.requests_are_bounded`, `StackRef.fetched`, `StackRef.names_property`, `StackRef.secret_name_lost`, `StackRef.secret_name_lost_witness`, `StackRef.secretness_partial`, `StackRef.unknown_in_preview`, `StepGen.a_second_registration_is_refused`, `StepGen.aliases_can_delete_twice`, `StepGen.aliases_can_keep_what_is_deleted`, `StepGen.aliases_can_share_a_resource`, ``, `StepGen.aliases_of_a_replaced_resource_crash`, `StepGen.an_update_makes_every_resource_once`, `StepGen.changed_resources_are_updated`, `StepGen.created_before_deleted`, `StepGen.deleted_before_created`, `StepGen.dependents_go_first`, `StepGen.each_event_makes_one_resource`, `StepGen.every_resource_has_one_fate_partial`, `StepGen.importing_deletes_protected_resources`, `StepGen.imports_by_the_same_alias_crash`, `StepGen.leftover_dependents_crash`, `StepGen.new_resources_are_created`, `StepGen.nothing_made_depends_on_what_was_skipped`, `StepGen.parents_come_before_reads`, `StepGen.parents_come_first`, `StepGen.protected_dependents_are_deleted`, `StepGen.protected_leftovers_block_updates`, `StepGen.protected_resources_are_not_deleted_partial`, `StepGen.protected_resources_are_not_replaced`, `StepGen.reading_deletes_protected_resources`, `StepGen.reading_what_was_deleted_deletes_twice`, `StepGen.replaced_resources_are_replaced`, `StepGen.resources_are_succeeded_once`, `StepGen.resources_are_taken_over_once_partial`, `StepGen.resources_keep_their_urn`, `StepGen.targeted_updates_delete_for_what_was_chosen`, `StepGen.targeted_updates_touch_what_was_chosen_partial`, `StepGen.unchanged_resources_stay`, `StepGen.updates_fail_no_assertion_partial`, `StepGen.what_awaits_replacement_can_be_kept`, `StepGen.what_the_program_dropped_is_deleted`, `StepGen.what_was_deleted_ahead_is_made_again_or_forgotten`, `Types.assigned_properties`, `Types.constructed_equal`, `Types.decorated_once`, `Types.defaults_come_last`, `Types.input_forms_agree`, `Types.input_type_constructed`, `Types.misspelt_assignment_ignored`, `Types.option_names_translated`, `Types.output_forms_agree`, `Types.output_type_received`, `Types.output_types_found`, `Types.properties_always_read`, `Types.resource_outputs_found`, `Types.resource_types_found`, `Types.subclass_names_kept`, `Types.subclass_of_input_type`, `Types.wrappers_unwrapped_partial`, `Urn.alias_child_partial`, `Urn.alias_root_partial`, `Urn.all_aliases_content`, `Urn.create_urn_chain`, `Urn.create_urn_prefix`, `Urn.inherited_alias_is_former_urn`, `Urn.parse_create_urn`, `Urn.parse_ref_iff`, `Urn.parse_urn_text`, `Urn.parse_urn_type`, `Verdict.failure_fails`, `Verdict.failure_reported`, `Verdict.pending_warned`, `Verdict.plain_reports`, `Verdict.success_iff`, `Verdict.success_saw_the_end`, `Wire.archive_loses_dunder_file`, `Wire.assets_round_trip_partial`, `Wire.component_reference_urn`, `Wire.custom_reference_id`, `Wire.dependencies_exact`, `Wire.erase_then_read`, `Wire.keep_internal_top_only`, `Wire.keep_irrelevant_in_preview`, `Wire.marked_iff`, `Wire.names_translated`, `Wire.no_internal_keys`, `Wire.no_internal_properties`, `Wire.no_unknowns_in_update`, `Wire.none_property_loses_dependency`, `Wire.object_entries`, `Wire.output_value_keeps_marker`, `Wire.output_value_round_trip`, `Wire.plain_properties_round_trip`, `Wire.plain_round_trip`, `Wire.plain_round_trip_exact`, `Wire.properties_fail_only_by_value`, `Wire.property_dependencies_exact`, `Wire.property_names`, `Wire.read_at_path`, `Wire.reference_rebuilt`, `Wire.secret_null_entry_kept`, `Wire.secret_properties_hidden`, `Wire.secret_wrapped`, `Wire.secrets_bubble`, `Wire.secrets_hidden`, `Wire.sentinel_at_path_partial`, `Wire.sentinel_never_visible`, `Wire.serialised_legal`, `Wire.string_at_path`, `Wire.unknown_asset_path`, `Wire.unknown_marker_sent`, `Wire.unknown_sent_as_sentinel`, `Wire.unknown_sent_without_value`, `Wire.unknown_under_secret_lost`, `Wire.unknown_values_hidden`, `Wire.unknown_values_irrelevant`, `Workers.all_carried_out`, `Workers.continues`, `Workers.errored_iff` |
