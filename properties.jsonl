{"id": "C01", "title": "apply computes the callback's result on an update", "statement": "During an update (not a preview), for an Output whose value is v, Output.apply(f) resolves to f(v) when f returns a plain value, to the awaited value when f returns an awaitable, and to the inner Output's value when f returns an Output; the callback is run exactly once, even if the Output is marked unknown.", "quantifier": "all Outputs, all callbacks (plain, awaitable or Output result, or raising), all interleavings of the event loop", "why_tests_cant": "Callbacks and values are unbounded and the four futures of an Output resolve in any order chosen by the event loop; a test runs one order.", "anchors": ["sdk/python/lib/pulumi/output.py:Output.apply"]}
{"id": "C02", "title": "Preview never runs a callback on an unknown value", "statement": "During a preview, apply(f) without run_with_unknowns does not call f unless the Output is known and its value contains no unknown anywhere inside; the result is then unknown, keeps the source's secretness and dependencies, and its value is None.", "quantifier": "all Outputs (known or not, with unknowns nested anywhere), all callbacks, all schedules", "why_tests_cant": "An unknown can be nested at any depth of a value and reach apply through any chain of operations.", "anchors": ["sdk/python/lib/pulumi/output.py:Output.apply", "sdk/python/lib/pulumi/output.py:Output.__init__", "sdk/python/lib/pulumi/runtime/rpc.py:contains_unknowns"]}
{"id": "C03", "title": "Secretness is never lost by apply", "statement": "Whenever apply(f) resolves without an exception, its result is secret exactly when the source Output is secret or f returned a secret Output; consequently any chain of applies starting from a secret Output ends in a secret Output.", "quantifier": "all Outputs, callbacks, chains of applies of any length, preview and update, all schedules", "why_tests_cant": "A leak needs one particular combination of flags somewhere in an unbounded chain; tests sample combinations.", "anchors": ["sdk/python/lib/pulumi/output.py:Output.apply"]}
{"id": "C04", "title": "Dependencies are never lost by apply", "statement": "The set of resources an applied Output depends on is exactly the union of the source's set and the set of the Output returned by the callback (empty if it returned none), also when the callback is skipped in preview, and it still contains the source's set when the callback raises.", "quantifier": "all Outputs, callbacks, schedules, and points at which an exception is raised", "why_tests_cant": "Exceptions can occur at each await point; the finally block must produce the right set at each.", "anchors": ["sdk/python/lib/pulumi/output.py:Output.apply"]}
{"id": "C05", "title": "apply obeys the monad laws", "statement": "With respect to value, known flag, secret flag and dependency set: from_input(x).apply(f) behaves like f(x), o.apply(from_input-like identity) behaves like o, and o.apply(f).apply(g) behaves like o.apply(lambda x: f(x).apply(g)), for updates; in previews they agree on secretness and dependencies up to callbacks not run and on knownness.", "quantifier": "all Outputs and all callbacks returning Outputs", "why_tests_cant": "Algebraic laws over arbitrary functions cannot be tested exhaustively.", "anchors": ["sdk/python/lib/pulumi/output.py:Output.apply", "sdk/python/lib/pulumi/output.py:Output.from_input"]}
{"id": "C06", "title": "Output.all aggregates pointwise", "statement": "Output.all(*xs) resolves to the list of the individual values in argument order (dict for keyword arguments, same keys in the same order); it is known iff all are known, secret iff any is secret, and depends on exactly the union of the dependencies. Mixing positional and keyword arguments raises ValueError.", "quantifier": "argument lists and dicts of any length, any mixture of plain values, awaitables and Outputs", "why_tests_cant": "Unbounded number of arguments and flag combinations.", "anchors": ["sdk/python/lib/pulumi/output.py:Output.all", "sdk/python/lib/pulumi/output.py:_gather_from_dict"]}
{"id": "C07", "title": "from_input unwraps deeply and loses nothing", "statement": "Output.from_input(v) resolves to v with every Output and awaitable nested in lists, dicts and input classes replaced by its value; the result contains no Output or awaitable in those positions; it is secret iff some nested Output is secret and depends on the union of all nested dependencies.", "quantifier": "all values: arbitrarily nested lists, dicts, input classes, awaitables and Outputs of Outputs", "why_tests_cant": "Nesting depth is unbounded and mixes five kinds of container.", "anchors": ["sdk/python/lib/pulumi/output.py:Output.from_input", "sdk/python/lib/pulumi/output.py:Output.all"]}
{"id": "C08", "title": "secret and unsecret set only the secret flag", "statement": "Output.secret(v) is always secret, Output.unsecret(o) is never secret, and both leave value, known flag and dependencies as from_input(v) resp. o had them.", "quantifier": "all values and Outputs, all schedules", "why_tests_cant": "Must hold for every combination of nested flags.", "anchors": ["sdk/python/lib/pulumi/output.py:Output.secret", "sdk/python/lib/pulumi/output.py:Output.unsecret"]}
{"id": "C09", "title": "Results do not depend on the event-loop schedule", "statement": "For any program built from futures, tasks, await, gather and the Output operations, every complete execution of the event loop resolves exactly the same futures to exactly the same results, whatever order ready tasks are run in; a future once resolved never changes.", "quantifier": "all task programs and all interleavings (schedules) of any length", "why_tests_cant": "The number of interleavings is exponential; tests see the one asyncio happens to pick.", "anchors": ["sdk/python/lib/pulumi/output.py:Output", "sdk/python/lib/pulumi/runtime/resource.py:register_resource", "sdk/python/lib/pulumi/runtime/rpc.py:serialize_property"]}
{"id": "C10", "title": "An apply never hangs its consumers", "statement": "If the source Output's futures all resolve (to results or exceptions) and the callback's own futures do, then the value, known, secret and dependency futures of the result of apply all resolve, including when the callback or any awaited future raises.", "quantifier": "all schedules and all points at which an exception is raised", "why_tests_cant": "Needs every exceptional path of the coroutine, at each await.", "anchors": ["sdk/python/lib/pulumi/output.py:Output.apply"]}
{"id": "C11", "title": "Joining two inputs keeps knownness and secretness", "statement": "Merging two option bags whose depends_on are Outputs yields an Output that is secret if either is secret, and known only if both are known.", "quantifier": "all pairs of Outputs", "why_tests_cant": "Four flag combinations times unbounded values; the existing tests never look at the flags of the merged Output.", "anchors": ["sdk/python/lib/pulumi/output.py:_map2_output", "sdk/python/lib/pulumi/output.py:_map2_input", "sdk/python/lib/pulumi/resource.py:ResourceOptions._depends_on_list"]}
{"id": "C12", "title": "Unknown detection is exact on any object graph", "statement": "contains_unknowns(v) terminates and returns True exactly when an unknown is reachable from v through list elements and dict values, for every object graph including ones with sharing and cycles.", "quantifier": "all finite object graphs, including cyclic ones", "why_tests_cant": "Cyclic structures of arbitrary shape; a wrong visited-set gives either non-termination or a missed unknown.", "anchors": ["sdk/python/lib/pulumi/runtime/rpc.py:contains_unknowns"]}
{"id": "C13", "title": "Secrets stay secret on the wire", "statement": "When the engine supports secrets, every value obtained from a secret Output, at any depth of the inputs, is transmitted only inside a secret wrapper (or an output value marked secret).", "quantifier": "all input values, nested at any depth, and all engine feature combinations that support secrets", "why_tests_cant": "A leak requires one particular nesting; the space of nestings is infinite.", "anchors": ["sdk/python/lib/pulumi/runtime/rpc.py:serialize_property", "sdk/python/lib/pulumi/runtime/rpc.py:serialize_properties"]}
{"id": "C14", "title": "Unknown values are sent as the unknown sentinel, never as a value", "statement": "The wire form of an Output that is not known is the unknown sentinel (or an output value without a value field) whatever the underlying value is.", "quantifier": "all Outputs and nestings", "why_tests_cant": "Unbounded nesting and values.", "anchors": ["sdk/python/lib/pulumi/runtime/rpc.py:serialize_property"]}
{"id": "C15", "title": "Serialising collects every dependency", "statement": "The dependency list produced when serialising a property contains exactly the resources of every Output and every resource reference occurring in it (at any depth, including resources reached through values of Outputs and the urn/id Outputs of referenced resources).", "quantifier": "all input values", "why_tests_cant": "Completeness over an infinite family of nested values.", "anchors": ["sdk/python/lib/pulumi/runtime/rpc.py:serialize_property", "sdk/python/lib/pulumi/runtime/rpc.py:serialize_properties"]}
{"id": "C16", "title": "Plain data survives the wire", "statement": "For data made of None, booleans, numbers, strings, lists and dicts whose keys and strings avoid the reserved markers, deserialising the serialised form gives back the same data, except that None-valued entries of dicts (at the top and below) are dropped.", "quantifier": "all such values, any size and depth", "why_tests_cant": "Round trip over an infinite domain.", "anchors": ["sdk/python/lib/pulumi/runtime/rpc.py:serialize_property", "sdk/python/lib/pulumi/runtime/rpc.py:deserialize_property", "sdk/python/lib/pulumi/runtime/rpc.py:deserialize_properties"]}
{"id": "C17", "title": "Deserialised secrets bubble to the top and nothing else changes", "statement": "After deserialisation no secret marker is nested inside a list or object; the property is marked secret at top level iff the wire value contained a secret wrapper anywhere that the program can see (lists, visible entries of objects, ids of unresolvable references), and erasing the marker gives the same data, up to None-valued entries of objects, as erasing the wrappers on the wire first.", "quantifier": "all wire values", "why_tests_cant": "Arbitrary nestings of wrappers, lists and objects.", "anchors": ["sdk/python/lib/pulumi/runtime/rpc.py:deserialize_property", "sdk/python/lib/pulumi/runtime/rpc.py:deserialize_properties", "sdk/python/lib/pulumi/runtime/rpc.py:wrap_rpc_secret", "sdk/python/lib/pulumi/runtime/rpc.py:unwrap_rpc_secret"]}
{"id": "C18", "title": "Unknown sentinel decoding", "statement": "Deserialising the unknown sentinel gives an unknown in preview or when the caller asked to keep unknowns, and None otherwise, at every position in a value.", "quantifier": "all wire values, preview/update, keep_unknowns on/off", "why_tests_cant": "Positions are unbounded (lists, objects, secrets, archives).", "anchors": ["sdk/python/lib/pulumi/runtime/rpc.py:deserialize_property", "sdk/python/lib/pulumi/runtime/rpc.py:deserialize_properties"]}
{"id": "C19", "title": "Internal properties never reach the program", "statement": "A deserialised object contains no key starting with two underscores except __provider, unless internal properties were requested; all other keys with non-null values are kept.", "quantifier": "all wire objects", "why_tests_cant": "All key sets.", "anchors": ["sdk/python/lib/pulumi/runtime/rpc.py:deserialize_properties"]}
{"id": "C20", "title": "Only legal wire values are produced", "statement": "Serialisation of any value either raises an error or produces a value built only from the kinds the protocol accepts (null, bool, number, string, list, struct with string keys, asset, archive).", "quantifier": "all Python values of the modelled universe", "why_tests_cant": "Universal over values.", "anchors": ["sdk/python/lib/pulumi/runtime/rpc.py:serialize_property", "sdk/python/lib/pulumi/runtime/rpc.py:isLegalProtobufValue"]}
{"id": "C21", "title": "Assets and archives survive the wire", "statement": "Serialising then deserialising any asset or archive (file, string, remote, and archives of archives nested to any depth) gives back an equal asset or archive.", "quantifier": "all assets and archives", "why_tests_cant": "Nested archives are unbounded.", "anchors": ["sdk/python/lib/pulumi/asset.py", "sdk/python/lib/pulumi/runtime/rpc.py:serialize_property", "sdk/python/lib/pulumi/runtime/rpc.py:deserialize_properties"]}
{"id": "C22", "title": "Output values survive the wire", "statement": "Serialising an Output as a first-class output value and deserialising it gives back an Output with the same secretness, knownness, dependency URNs and (if known) value.", "quantifier": "all resolved Outputs over plain data", "why_tests_cant": "All flag/value/dependency combinations.", "anchors": ["sdk/python/lib/pulumi/runtime/rpc.py:serialize_property", "sdk/python/lib/pulumi/runtime/rpc.py:deserialize_output_value"]}
{"id": "C23", "title": "Every output property is resolved exactly once", "statement": "After an engine response is processed, each declared output property of the resource except id and urn is resolved exactly once - never left pending and never resolved twice - whatever properties the response contains.", "quantifier": "all sets of declared properties, all responses", "why_tests_cant": "All responses: missing, extra, null, renamed properties.", "anchors": ["sdk/python/lib/pulumi/runtime/rpc.py:transfer_properties", "sdk/python/lib/pulumi/runtime/rpc.py:resolve_outputs", "sdk/python/lib/pulumi/runtime/rpc.py:resolve_properties"]}
{"id": "C24", "title": "Engine outputs win over program inputs", "statement": "The value given to an output property is the engine's if the response has the property with a value other than null, else the program's input in an update or with legacy apply, else None, which is unknown in a preview. It is secret iff the source marked it secret.", "quantifier": "all responses and inputs, preview/update, legacy apply on/off", "why_tests_cant": "All overlaps of key sets.", "anchors": ["sdk/python/lib/pulumi/runtime/rpc.py:resolve_outputs", "sdk/python/lib/pulumi/runtime/rpc.py:resolve_properties"]}
{"id": "C25", "title": "A failed registration fails every output", "statement": "If preparing or registering a resource raises, then its urn, id and every output property raise that exception when awaited; none hangs.", "quantifier": "all exceptions raised at any stage before outputs are resolved", "why_tests_cant": "Each stage of the coroutine is a crash point.", "anchors": ["sdk/python/lib/pulumi/runtime/resource.py:register_resource", "sdk/python/lib/pulumi/runtime/rpc.py:resolve_outputs_due_to_exception"]}
{"id": "C26", "title": "Dependencies sent to the engine are complete", "statement": "The dependency list of a registration contains the URN of every explicit depends_on resource and every resource in a property's dependencies, with component resources replaced by the custom and remote resources below them, and each property's own dependency list likewise.", "quantifier": "all resource trees and dependency sets", "why_tests_cant": "Arbitrary trees of components.", "anchors": ["sdk/python/lib/pulumi/runtime/resource.py:prepare_resource", "sdk/python/lib/pulumi/runtime/resource.py:_add_dependency", "sdk/python/lib/pulumi/runtime/resource.py:_expand_dependencies"]}
{"id": "C27", "title": "Declared dependencies never form a cycle", "statement": "The recorded dependency graph stays acyclic for every sequence of declarations; a declaration is refused only if the reverse path already exists (so accepting it would close a cycle), and a refused declaration changes nothing.", "quantifier": "all finite sequences of declarations between any resources", "why_tests_cant": "History-dependent: any sequence of declarations.", "anchors": ["sdk/python/lib/pulumi/runtime/resource_cycle_breaker.py:declare_dependency"]}
{"id": "C28", "title": "Aliases are unique and keep order", "statement": "The alias list sent for a resource has no duplicates, keeps first-occurrence order, and contains exactly the URNs of the resource's aliases.", "quantifier": "all alias lists", "why_tests_cant": "Any length, any duplication pattern.", "anchors": ["sdk/python/lib/pulumi/runtime/resource.py:prepare_resource"]}
{"id": "C29", "title": "URNs parse back to their parts", "statement": "For names, types, projects and stacks without the separator, create_urn followed by parsing yields the same name and type, and the child of a parent has the parent's qualified type as prefix; a provider reference built from urn and id parses back to the same urn and id.", "quantifier": "all stacks, projects, types, names and chains of parents whose strings neither contain the separator nor touch it with a colon; for provider references all urns and all ids that neither contain the separator nor start with a colon", "why_tests_cant": "String domain.", "anchors": ["sdk/python/lib/pulumi/resource.py:create_urn", "sdk/python/lib/pulumi/urn.py:_parse_urn", "sdk/python/lib/pulumi/resource.py:_parse_resource_reference"]}
{"id": "C30", "title": "A renamed parent's children keep their identity", "statement": "The alias a child inherits from an alias of its parent is exactly the URN the child had under the old parent (same type; name re-prefixed when the child name extends the parent name).", "quantifier": "all parent URNs, names and types", "why_tests_cant": "String domain.", "anchors": ["sdk/python/lib/pulumi/resource.py:inherited_child_alias", "sdk/python/lib/pulumi/resource.py:urn_type_and_name"]}
{"id": "C31", "title": "The full alias set is the documented product", "statement": "With N child aliases and M parent aliases exactly N + M*(1+N) aliases are generated, namely the child's own, the one inherited for the current name from each parent alias, and each child alias re-based on each parent alias.", "quantifier": "all lists of aliases", "why_tests_cant": "Unbounded lists.", "anchors": ["sdk/python/lib/pulumi/resource.py:all_aliases"]}
{"id": "C32", "title": "Merging resource options", "statement": "ResourceOptions.merge is right-biased for scalars (later non-None wins), concatenates list options in order, merges provider maps with later entries winning, treats None as empty, is associative up to the listed fields, and leaves its arguments unchanged.", "quantifier": "all option bags", "why_tests_cant": "Product of many optional fields.", "anchors": ["sdk/python/lib/pulumi/resource.py:ResourceOptions.merge", "sdk/python/lib/pulumi/resource.py:_merge_lists", "sdk/python/lib/pulumi/resource.py:_collapse_providers"]}
{"id": "C33", "title": "Provider selection", "statement": "A custom resource uses its explicit provider option if given, else the entry of its providers option for the package of its type, else the one its parent offers for that package; a provider of another package is rejected; the request names that provider; children are offered the parent's providers overridden by the resource's own, whatever the depth.", "quantifier": "all resource trees of any depth and provider maps", "why_tests_cant": "Arbitrary depth trees.", "anchors": ["sdk/python/lib/pulumi/resource.py:Resource.__init__", "sdk/python/lib/pulumi/resource.py:Resource._get_providers", "sdk/python/lib/pulumi/resource.py:Resource.get_provider"]}
{"id": "C34", "title": "Transformations run innermost first and cannot re-parent", "statement": "A resource's transformations run in order: its own, then its ancestors' outwards, then those registered for the stack; each sees the previous result, a None result leaves props and opts unchanged, what the last one returns is registered, and changing the parent raises and registers nothing.", "quantifier": "all trees and lists of transformations", "why_tests_cant": "Unbounded depth and length, arbitrary functions.", "anchors": ["sdk/python/lib/pulumi/resource.py:Resource.__init__", "sdk/python/lib/pulumi/runtime/stack.py:register_stack_transformation"]}
{"id": "C35", "title": "Protection is inherited", "statement": "A resource whose options leave protect unset is protected iff its nearest ancestor with protect set is protected, and the engine is told exactly that.", "quantifier": "all resource trees", "why_tests_cant": "Arbitrary depth.", "anchors": ["sdk/python/lib/pulumi/resource.py:Resource.__init__"]}
{"id": "C36", "title": "Registered package lookup returns the best compatible version", "statement": "For any history of package (or module) registrations, some of which may have been rejected, looking up a name with a version request returns a registration in force under that name that is acceptable for the request and such that no acceptable one in force is newer in semantic-version order; it returns nothing iff none in force is acceptable; it never raises on a well-formed version. Acceptable means: one of the two versions is unspecified, or same major, and minor and patch each at least the requested ones. Registering a version that equals one in force (no version equals every version) is rejected and changes nothing; otherwise it comes into force. Modules of different packages never share registrations when package names have no colon.", "quantifier": "all registration histories and requested versions", "why_tests_cant": "History-dependent maximum over arbitrary version sets.", "anchors": ["sdk/python/lib/pulumi/runtime/rpc.py:register_resource_package", "sdk/python/lib/pulumi/runtime/rpc.py:get_resource_package", "sdk/python/lib/pulumi/runtime/rpc.py:same_version", "sdk/python/lib/pulumi/runtime/rpc.py:check_version", "sdk/python/lib/pulumi/runtime/rpc.py:register_resource_module", "sdk/python/lib/pulumi/runtime/rpc.py:get_resource_module"]}
{"id": "C37", "title": "Config lookup precedence", "statement": "After any history of set_config and set_all_config calls in any contexts and of tasks being started, a config key resolves to the explicitly set value, else the key's own environment variable, else the PULUMI_CONFIG map entry, else None. Setting a key makes the following lookup return it and affects no other explicitly set key; replacing all config affects only the calling context; a task starts with its creator's config. The environment variable is PULUMI_CONFIG_ plus the key with ASCII letters upper-cased and everything but letters and digits replaced by an underscore.", "quantifier": "all keys, environments and histories of set operations", "why_tests_cant": "History and environment dependent.", "anchors": ["sdk/python/lib/pulumi/runtime/config.py:get_config", "sdk/python/lib/pulumi/runtime/config.py:set_config", "sdk/python/lib/pulumi/runtime/config.py:set_all_config", "sdk/python/lib/pulumi/runtime/config.py:get_config_env_key"]}
{"id": "C38", "title": "Typed config getters", "statement": "get_bool returns True only for true/True, False only for false/False; every typed getter returns the default when the key is unset (or reads as null), and raises an error naming key and value when the value does not convert; require* raises a missing error exactly when the key is unset or reads as null; get_secret*/require_secret* succeed exactly when the plain getter does and return an Output with the same value that is always secret and known.", "quantifier": "all config contents, keys, kinds, defaults and executions", "why_tests_cant": "All strings.", "anchors": ["sdk/python/lib/pulumi/config.py:Config"]}
{"id": "C39", "title": "The program waits for every RPC and hides no failure", "statement": "The run loop returns normally only when every RPC ever started (including those started by other RPCs) has completed without an exception and the program itself did not raise; if it raises, the exception is the program's own or that of a failed RPC or task; and once all tasks are done it ends.", "quantifier": "all programs spawning RPCs and all schedules", "why_tests_cant": "RPCs spawn RPCs; all interleavings.", "anchors": ["sdk/python/lib/pulumi/runtime/stack.py:wait_for_rpcs", "sdk/python/lib/pulumi/runtime/rpc_manager.py:RPCManager.do_rpc"]}
{"id": "C40", "title": "Component constructions are serialised", "statement": "The component-provider server never executes two Construct/Call bodies at the same time, releases its lock on every exit path (also exceptions), and each request therefore runs with its own settings.", "quantifier": "all numbers of concurrent requests and all schedules", "why_tests_cant": "Interleavings.", "anchors": ["sdk/python/lib/pulumi/provider/server.py:ProviderServicer.Construct", "sdk/python/lib/pulumi/provider/server.py:ProviderServicer.Call"]}
{"id": "C41", "title": "concat joins strings and keeps flags", "statement": "Output.concat(*args) of inputs that resolve to known strings resolves to their concatenation in argument order, is known, is secret iff some argument is secret and depends on the union of the arguments' dependencies.", "quantifier": "all argument lists of any length mixing plain strings, awaitables and (nested) Outputs, preview and update, all schedules", "why_tests_cant": "Unbounded argument lists and nesting, every schedule of the tasks involved.", "anchors": ["sdk/python/lib/pulumi/output.py:Output.concat"]}
{"id": "C42", "title": "Lifted access is access on the value", "statement": "o.attr and o[key] on a known Output resolve to the attribute/item of its value (or raise what the access raises); in a preview on an Output that is not known the access is never attempted and the result is unknown; secretness and dependencies are always those of o.", "quantifier": "all Outputs, all accesses, preview and update, all schedules", "why_tests_cant": "Ranges over all values, accesses and schedules.", "anchors": ["sdk/python/lib/pulumi/output.py:Output.__getattr__", "sdk/python/lib/pulumi/output.py:Output.__getitem__"]}
{"id": "C43", "title": "Stack exports are converted faithfully and without private state", "statement": "Converting the exported values of a stack terminates for every object graph, the result contains no key starting with an underscore at any depth, and acyclic exported data is exported in full.", "quantifier": "all finite object graphs, including shared and cyclic ones, preview and update", "why_tests_cant": "Ranges over all object graphs, including cycles and sharing.", "anchors": ["sdk/python/lib/pulumi/runtime/stack.py:massage", "sdk/python/lib/pulumi/runtime/stack.py:Stack.__init__"]}
{"id": "C44", "title": "An alias denotes the URN its fields describe", "statement": "An Alias stands for the URN with the name, type, parent, stack and project it gives, each one left out being that of the resource itself; a plain URN stands for itself; an explicit None name or type is rejected.", "quantifier": "all aliases, all combinations of given and omitted fields, all resources", "why_tests_cant": "five fields each omitted, None or given, with arbitrary strings and parents", "anchors": ["sdk/python/lib/pulumi/resource.py:Alias", "sdk/python/lib/pulumi/resource.py:collapse_alias_to_urn", "sdk/python/lib/pulumi/resource.py:create_urn"]}
{"id": "C45", "title": "Inputs are sent under the names their declared types give them", "statement": "Wherever it is nested, a property of an input type (given as a dict or as an instance) is sent under its Pulumi name and by its declared type; entries of a Dict[str, T] keep their own names; entries of untyped dicts are renamed by the resource's translation function; list elements keep their index.", "quantifier": "all input types, all nested values, all paths into them", "why_tests_cant": "types nest without bound and the naming rule changes at each level", "anchors": ["sdk/python/lib/pulumi/runtime/rpc.py:serialize_property", "sdk/python/lib/pulumi/runtime/rpc.py:serialize_properties", "sdk/python/lib/pulumi/_types.py:input_type_py_to_pulumi_names"]}
{"id": "C46", "title": "Resource references round-trip", "statement": "A resource passed as a property value arrives, at a peer that has registered its module (or package, for a provider), as a resource built from its URN; at a peer that has not, a component arrives as its URN and a custom resource as its id: the id itself when known and not empty, unknown when unknown or empty, secret when secret.", "quantifier": "all resources, URNs, ids and registrations", "why_tests_cant": "holds for all URNs and all combinations of known, secret and registered", "anchors": ["sdk/python/lib/pulumi/runtime/rpc.py:serialize_property", "sdk/python/lib/pulumi/runtime/rpc.py:deserialize_resource"]}
{"id": "C47", "title": "Outputs depend on their resource and on what the engine reports", "statement": "An output property of a registered resource depends on the resource itself and on exactly the resources the engine reports for that property, whether or not the response has a value for it.", "quantifier": "all responses, all property dependency maps, all declared properties", "why_tests_cant": "All key sets and dependency maps.", "anchors": ["sdk/python/lib/pulumi/runtime/resource.py:register_resource", "sdk/python/lib/pulumi/runtime/rpc.py:resolve_outputs", "sdk/python/lib/pulumi/runtime/rpc.py:transfer_properties"]}
{"id": "C48", "title": "Output values have the declared names and types", "statement": "A value that the engine has at a path in an output property is found by the program at the corresponding path - list elements at their index, dict entries under their own or translated name, properties of an output type as the attribute with its Python name - and is translated to the type declared there; a property of an output type that the engine does not send reads as None.", "quantifier": "all declared types, all values from the engine, all paths", "why_tests_cant": "Nested types and values of any depth.", "anchors": ["sdk/python/lib/pulumi/runtime/rpc.py:translate_output_properties", "sdk/python/lib/pulumi/_types.py:output_type_from_dict"]}
{"id": "C49", "title": "Config bags with different names do not share values", "statement": "Two Config bags with different names never share the value of the same simple key, wherever values come from.", "quantifier": "all bag names, keys, histories and environments", "why_tests_cant": "Ranges over all pairs of names and all environments.", "anchors": ["sdk/python/lib/pulumi/config.py:Config.full_key", "sdk/python/lib/pulumi/runtime/config.py:get_config_env_key"]}
{"id": "C50", "title": "No work is left pending when a run returns", "statement": "When the run of a program returns normally, every task the program created, directly or through other tasks, has finished.", "quantifier": "all programs and all schedules", "why_tests_cant": "Tasks create tasks; all interleavings.", "anchors": ["sdk/python/lib/pulumi/runtime/stack.py:wait_for_rpcs"]}
{"id": "C51", "title": "Requests to a component provider stand on their own", "statement": "Whether a Construct or Call request succeeds depends on that request alone, not on whether earlier requests to the same provider process failed.", "quantifier": "all sequences of requests and all schedules", "why_tests_cant": "Ranges over all histories of the process.", "anchors": ["sdk/python/lib/pulumi/provider/server.py:ProviderServicer.Construct", "sdk/python/lib/pulumi/runtime/rpc_manager.py:RPCManager"]}
{"id": "C52", "title": "The first failure is the one reported", "statement": "When several RPCs fail, the run raises the exception of the one that failed first.", "quantifier": "all programs and all schedules", "why_tests_cant": "All interleavings of failures with the loop.", "anchors": ["sdk/python/lib/pulumi/runtime/stack.py:wait_for_rpcs", "sdk/python/lib/pulumi/runtime/rpc_manager.py:RPCManager.do_rpc"]}
{"id": "C53", "title": "Inputs of a component keep their secretness and dependencies", "statement": "Every input of a Construct or Call request reaches the provider under its name; one that contains a secret at any depth arrives as a secret Output without markers inside, one with dependencies arrives as a value with all these dependencies, and one with neither as the plain value.", "quantifier": "all requests, values and dependency lists", "why_tests_cant": "Ranges over all nested values.", "anchors": ["sdk/python/lib/pulumi/provider/server.py:ProviderServicer._construct_inputs", "sdk/python/lib/pulumi/provider/server.py:ProviderServicer._select_value"]}
{"id": "C54", "title": "A component's response lists exactly its dependencies", "statement": "The response to a Construct or Call request contains every output value under its name, except a component's own id and urn, and lists for each the URNs of exactly the resources it mentions; a resource without URN makes the request fail.", "quantifier": "all states and outputs", "why_tests_cant": "Ranges over all nested values.", "anchors": ["sdk/python/lib/pulumi/provider/server.py:ProviderServicer._construct_response", "sdk/python/lib/pulumi/provider/server.py:ProviderServicer._call_response"]}
{"id": "C55", "title": "A component is constructed with the options of the request", "statement": "The options given to a component carry the parent, aliases, dependencies, protection and providers that the request names.", "quantifier": "all requests", "why_tests_cant": "Ranges over all requests.", "anchors": ["sdk/python/lib/pulumi/provider/server.py:ProviderServicer._construct_options", "sdk/python/lib/pulumi/provider/server.py:_create_provider_resource"]}
{"id": "C56", "title": "A synchronous invoke does not disturb the event loop", "statement": "An invoke waits for its result by running the event loop from within it. However many are nested and whatever other tasks and callbacks do meanwhile, the event loop raises no error, everything scheduled runs exactly once and in order, no task is lost or re-entered, and code always runs as its own current task.", "quantifier": "all programs, schedules and nestings", "why_tests_cant": "Re-entrancy problems appear only in particular interleavings.", "anchors": ["sdk/python/lib/pulumi/runtime/sync_await.py:_sync_await", "sdk/python/lib/pulumi/runtime/invoke.py:invoke"]}
{"id": "C57", "title": "A synchronous invoke returns once its result is there", "statement": "When the result of an invoke has arrived, the invoke returns it without waiting for anything else.", "quantifier": "all programs, schedules and nestings", "why_tests_cant": "Depends on which other invokes are under way.", "anchors": ["sdk/python/lib/pulumi/runtime/sync_await.py:_sync_await", "sdk/python/lib/pulumi/runtime/invoke.py:invoke"]}
{"id": "C58", "title": "An invoke returns what the provider returned, or raises", "statement": "An invoke sends one request, with the function's token, the arguments, the reference of the provider to use, and the version and URL of its options. It returns a value exactly if the request was answered without failures, and then the value read from the answer; in every other case it raises, with the provider's first reason or the monitor's details. Failures of the provider or monitor may be caught by the caller; other errors also make the program fail.", "quantifier": "all tokens, arguments, options and answers of the monitor", "why_tests_cant": "Answers, failures and arguments are unbounded; tests mock a few.", "anchors": ["sdk/python/lib/pulumi/runtime/invoke.py:invoke", "sdk/python/lib/pulumi/runtime/invoke.py:_sync_await"]}
{"id": "C59", "title": "An invoke uses the provider its options give", "statement": "Every invoke uses the provider given in its options; if there is none, the provider that the options' parent has for the function's package; and otherwise the engine's default provider. This holds for each of several invokes made with the same options object.", "quantifier": "all options objects and sequences of invokes with them", "why_tests_cant": "Depends on the history of uses of the options object.", "anchors": ["sdk/python/lib/pulumi/runtime/invoke.py:invoke", "sdk/python/lib/pulumi/resource.py:Resource.get_provider"]}
{"id": "C60", "title": "Merged invoke options keep what either bag gives", "statement": "Merging two bags of invoke options yields a bag which has every option that the second gives, and every other option that the first gives; neither argument changes, and merging may be repeated.", "quantifier": "all bags of options and sequences of merges", "why_tests_cant": "Tests look at a few combinations.", "anchors": ["sdk/python/lib/pulumi/invoke.py:InvokeOptions.merge", "sdk/python/lib/pulumi/invoke.py:InvokeOptions._merge_instance"]}
{"id": "C61", "title": "The Output of a call is resolved with the call's answer", "statement": "A call sends every argument with exactly the resources it depends on and the provider of its resource. Its Output is resolved exactly once: with the answer's properties (as the output type asked for), known exactly if nothing in the answer is unknown, secret exactly if something in it is secret, depending on exactly the listed dependencies; or, if anything fails, with the exception, and the program fails.", "quantifier": "all arguments, resources and answers of the monitor", "why_tests_cant": "Answers are unbounded nested values, and every failure point matters.", "anchors": ["sdk/python/lib/pulumi/runtime/invoke.py:call"]}
{"id": "C62", "title": "The engine is asked for what the options say", "statement": "Registering a resource sends its type, name, kind, the parent given (else the root resource), every argument under its translated name, the provider (for a remote component all of them) and every option as given: an option that is not given is sent as its default, and whether to delete before replacing is said only if it was given. Aliases are sent once each in order. Registration fails only if a dependency, an argument, the timeouts or an alias cannot be sent. Options refuse a depends_on that is available at once and has something other than a resource. The outputs of a component are sent for its own URN.", "quantifier": "all resources, arguments, combinations of options, and contexts", "why_tests_cant": "There are exponentially many combinations of options.", "anchors": ["sdk/python/lib/pulumi/runtime/resource.py:prepare_resource", "sdk/python/lib/pulumi/runtime/resource.py:register_resource", "sdk/python/lib/pulumi/runtime/resource.py:register_resource_outputs", "sdk/python/lib/pulumi/resource.py:ResourceOptions.__init__"]}
{"id": "C63", "title": "Options name the properties that are sent", "statement": "A property named in ignore_changes or replace_on_changes is sent to the engine under the very name under which the argument is sent, and one named in additional_secret_outputs under the name that the engine's output is read from; nothing else is named. This holds for whole properties and for paths below them.", "quantifier": "all resource classes, names, arguments and options", "why_tests_cant": "Names and their translations are arbitrary.", "anchors": ["sdk/python/lib/pulumi/runtime/resource.py:_translate_ignore_changes", "sdk/python/lib/pulumi/runtime/resource.py:_translate_additional_secret_outputs", "sdk/python/lib/pulumi/runtime/resource.py:_translate_replace_on_changes", "sdk/python/lib/pulumi/_types.py:resource_py_to_pulumi_names", "sdk/python/lib/pulumi/_types.py:resource_pulumi_to_py_names"]}
{"id": "C64", "title": "A registration depends on what depends_on and the arguments say", "statement": "Every registration lists exactly the resources that depends_on asks for - directly, later through awaitables and Outputs, or as dependencies of such an Output - and those that its arguments mention (components stand for their descendants), except for resources that depend on it already; and for every argument those that it mentions. Using the same options for several resources makes no difference.", "quantifier": "all values of depends_on, arguments, resource trees, earlier registrations and uses of the options", "why_tests_cant": "depends_on nests awaitables and Outputs to any depth, and options can be used any number of times.", "anchors": ["sdk/python/lib/pulumi/runtime/resource.py:_resolve_depends_on_urns", "sdk/python/lib/pulumi/runtime/resource.py:prepare_resource", "sdk/python/lib/pulumi/resource.py:ResourceOptions._depends_on_list", "sdk/python/lib/pulumi/output.py:_map_input"]}
{"id": "C65", "title": "Reading a resource uses the given id", "statement": "Reading a resource asks the engine for the resource with the id given (at once, later, or as an Output), its type, name and parent; once the engine has answered, the resource's id is known exactly if the given id is known, and is the given id.", "quantifier": "all ids, resources, options and answers", "why_tests_cant": "Ids may be Outputs that are unknown or secret.", "anchors": ["sdk/python/lib/pulumi/runtime/resource.py:read_resource"]}
{"id": "C66", "title": "A stack reference gives the named output, with the right secretness", "statement": "get_output(name) resolves to the referenced stack's output of that name, or None if there is none; require_output then fails with KeyError. The result depends on everything the name and the reference depend on. In a preview it is unknown while the name or the outputs are. It is secret if the name is on the engine's list of secret outputs (or, without such a list, if the outputs as a whole are secret), or if the name itself is a secret.", "quantifier": "all names (plain, awaitable or Output, known or not), all output dicts, all lists of secret names, preview and update, all schedules", "why_tests_cant": "Values, names, lists and the order in which their futures resolve are unbounded; tests look at single literals and never at a secret name.", "anchors": ["sdk/python/lib/pulumi/stack_reference.py:StackReference.get_output", "sdk/python/lib/pulumi/stack_reference.py:StackReference.require_output", "sdk/python/lib/pulumi/stack_reference.py:StackReference.__is_secret_name", "sdk/python/lib/pulumi/stack_reference.py:StackReference.translate_output_property"]}
{"id": "C67", "title": "Each program reads its own settings", "statement": "The project, stack, organization, preview flag, monitor and engine that a program reads are those its own run was started with, whatever other programs, threads and tasks of the same process do; tasks inherit them from their creator. The same holds for code run on its behalf in executor threads.", "quantifier": "all interleavings of runs, tasks, threads, resets and assignments in any number of contexts", "why_tests_cant": "The interleavings and the number of contexts are unbounded; a test fixes one.", "anchors": ["sdk/python/lib/pulumi/_utils.py:ContextProperty", "sdk/python/lib/pulumi/runtime/settings.py:Settings", "sdk/python/lib/pulumi/runtime/settings.py:reset_options", "sdk/python/lib/pulumi/runtime/mocks.py:MockSettings", "sdk/python/lib/pulumi/runtime/mocks.py:set_mocks"]}
{"id": "C68", "title": "Feature detection reflects the program's own monitor", "statement": "Whether a feature is supported is what the program's own monitor answered (unimplemented and no monitor mean no); after an answer the monitor is not asked again; a failed request is raised and not remembered; new settings ask anew. This includes mock monitors.", "quantifier": "all histories of runs, tasks, threads, requests and answers", "why_tests_cant": "Answers arrive while other programs run; which cache they land in depends on the interleaving.", "anchors": ["sdk/python/lib/pulumi/runtime/settings.py:monitor_supports_feature", "sdk/python/lib/pulumi/runtime/settings.py:grpc_error_to_exception", "sdk/python/lib/pulumi/_utils.py:ContextProperty.__setitem__", "sdk/python/lib/pulumi/runtime/mocks.py:MockSettings"]}
{"id": "C69", "title": "Inline programs of a process do not disturb each other", "statement": "Whatever other inline programs of the same process do before or at the same time, a program's run ends as it could in a process of its own: it waits for its own requests, raises only its own failures, and returns only if its own requests succeeded.", "quantifier": "all programs, all interleavings of their event loops, all histories of runs, failed ones included", "why_tests_cant": "Depends on the interleaving of threads and on how earlier runs ended.", "anchors": ["sdk/python/lib/pulumi/automation/_server.py:LanguageServer.Run", "sdk/python/lib/pulumi/runtime/rpc_manager.py:RPC_MANAGER", "sdk/python/lib/pulumi/runtime/stack.py:wait_for_rpcs"]}
{"id": "C70", "title": "A failing program is reported as failed", "statement": "The engine is told of an error exactly if the program raised an exception, with the message of a RunError as it is; for programs that are not inline the exit code is 0 exactly if the program did not raise.", "quantifier": "all ways a program can end", "why_tests_cant": "Every kind of exception, raised by any part of the program or its requests.", "anchors": ["sdk/python/lib/pulumi/automation/_server.py:LanguageServer.Run", "sdk/python/lib/pulumi/errors.py:RunError"]}
{"id": "C71", "title": "A run reads the configuration of its request", "statement": "An inline program reads exactly the configuration and the secret keys its run was started with, whatever ran before on the same thread and whatever other programs set.", "quantifier": "all histories of configuration calls in all contexts", "why_tests_cant": "Depends on what earlier runs left in the thread and what other threads do.", "anchors": ["sdk/python/lib/pulumi/automation/_server.py:LanguageServer.Run", "sdk/python/lib/pulumi/runtime/config.py:set_all_config", "sdk/python/lib/pulumi/runtime/config.py:set_config"]}
{"id": "C72", "title": "Under mocks a lookup gives the resource that was registered", "statement": "In a test with mocks, looking a resource up by its URN returns the id the mocks gave for the last registration or read answered with that URN, and properties that read exactly like the properties of that answer; looking up a URN that no answer has given raises.", "quantifier": "every history of overlapping registrations, reads and calls, every behaviour of the user's mocks, every state they return", "why_tests_cant": "tests register one resource at a time; here handlers overlap in any order and the states are arbitrary", "anchors": ["sdk/python/lib/pulumi/runtime/mocks.py: MockMonitor.Invoke, MockMonitor.ReadResource, MockMonitor.RegisterResource"]}
{"id": "C73", "title": "Under mocks different resources have different URNs", "statement": "In a test with mocks, two resources that differ in the types of their ancestors, in their type or in their name get different URNs, as they do under the engine.", "quantifier": "every nesting of resources, all types and names without separators", "why_tests_cant": "tests have a fixed, shallow nesting", "anchors": ["sdk/python/lib/pulumi/runtime/mocks.py: MockMonitor.make_urn"]}
{"id": "C74", "title": "Mocks see what the program passes and the program sees what they return", "statement": "Each resource of the program (other than the root stack) and each function call leads to exactly one call of the mocks, with the type, name, provider, id and inputs the program gave; the program's answer carries the id, state or result and failures that this call returned.", "quantifier": "every request and history, every behaviour of the mocks, all plain inputs and states", "why_tests_cant": "a test checks the mocks it was written for", "anchors": ["sdk/python/lib/pulumi/runtime/mocks.py: MockMonitor, Mocks.call, Mocks.new_resource"]}
{"id": "C75", "title": "Mocks never see an Output", "statement": "Whatever a program passes to a resource or call, however deep Outputs are nested in it, the inputs the mocks receive contain no Output.", "quantifier": "every input value whose keys are not the reserved signature key, every environment", "why_tests_cant": "inputs nest to any depth through lists, dicts, input objects and Outputs", "anchors": ["sdk/python/lib/pulumi/runtime/mocks.py: MockMonitor.SupportsFeature", "sdk/python/lib/pulumi/runtime/rpc.py: serialize_property, deserialize_property"]}
{"id": "C76", "title": "An event shows what the engine wrote", "statement": "Every event that on_event receives has the same sequence number and timestamp as the engine's event, exactly one of its kinds set, and every field of that kind equal to what the engine wrote in the log, an omitted field being None.", "quantifier": "all engine events of every kind, with all contents", "why_tests_cant": "Tests parse a few recorded events; three fields that no recorded event carried are looked up under names the engine does not use.", "anchors": ["sdk/python/lib/pulumi/automation/events.py:EngineEvent.from_json", "sdk/python/lib/pulumi/automation/events.py:DiagnosticEvent.from_json", "sdk/python/lib/pulumi/automation/events.py:PolicyEvent.from_json", "sdk/python/lib/pulumi/automation/events.py:StepEventMetadata.from_json"]}
{"id": "C77", "title": "Every engine event reaches the callback once and in order", "statement": "During up, preview, refresh and destroy, on_event is called with the engine's events in the order of the log, each exactly once, up to the cancel event, and once the log is complete and read none is missing.", "quantifier": "all logs, all ways in which the engine's writes are split, all interleavings of writes and reads, all callbacks", "why_tests_cant": "The watcher races with another process; a test sees one interleaving, in which lines happen to arrive whole.", "anchors": ["sdk/python/lib/pulumi/automation/_stack.py:_watch_logs", "sdk/python/lib/pulumi/automation/_stack.py:_create_log_file", "sdk/python/lib/pulumi/automation/_stack.py:_cleanup"]}
{"id": "C78", "title": "Watching ends with the command", "statement": "After the command whose events are watched has ended, the watching ends too: nothing the call started keeps running.", "quantifier": "all logs and interleavings, including those of a command that fails before its update begins", "why_tests_cant": "A test of a failing command sees the call return after the timeout, not that its thread lives on for ever.", "anchors": ["sdk/python/lib/pulumi/automation/_stack.py:_watch_logs", "sdk/python/lib/pulumi/automation/_stack.py:_cleanup"]}
{"id": "C79", "title": "The change summary of a preview", "statement": "A change summary that preview returns is the one of the first summary event in the engine's log, and preview finds it whenever the log has one before the cancel event.", "quantifier": "all logs, all interleavings of writes and reads", "why_tests_cant": "Depends on the race between the watcher and the engine's process.", "anchors": ["sdk/python/lib/pulumi/automation/_stack.py:Stack.preview", "sdk/python/lib/pulumi/automation/_stack.py:_watch_logs"]}
{"id": "C80", "title": "An operation runs with the options asked for", "statement": "For up, preview, refresh and destroy, the command line that is started is read by the CLI as exactly the options that the caller gave, each with its value, plus the flags that make it run without questions.", "quantifier": "all operations, options and texts as values", "why_tests_cant": "A test checks some options with ordinary values; the values are arbitrary texts, that may look like flags.", "anchors": ["sdk/python/lib/pulumi/automation/_stack.py:_parse_extra_args", "sdk/python/lib/pulumi/automation/_stack.py:Stack.up", "sdk/python/lib/pulumi/automation/_stack.py:Stack.preview", "sdk/python/lib/pulumi/automation/_stack.py:Stack.refresh", "sdk/python/lib/pulumi/automation/_stack.py:Stack.destroy", "sdk/python/lib/pulumi/automation/_cmd.py:_run_pulumi_cmd"]}
{"id": "C81", "title": "Config commands act on the keys and values given", "statement": "Reading, setting and removing config acts on exactly the stack, keys and values that the caller gave, and a value is stored as a secret exactly when it was given as one.", "quantifier": "all stacks, keys and values", "why_tests_cant": "Keys and values are arbitrary texts; tests use letters.", "anchors": ["sdk/python/lib/pulumi/automation/_local_workspace.py:LocalWorkspace.get_config", "sdk/python/lib/pulumi/automation/_local_workspace.py:LocalWorkspace.set_config", "sdk/python/lib/pulumi/automation/_local_workspace.py:LocalWorkspace.set_all_config", "sdk/python/lib/pulumi/automation/_local_workspace.py:LocalWorkspace.remove_config", "sdk/python/lib/pulumi/automation/_local_workspace.py:LocalWorkspace.remove_all_config"]}
{"id": "C82", "title": "Stack commands act on the stack given", "statement": "Creating, selecting and removing a stack acts on exactly the named stack, with the workspace's secrets provider for a new one, and removes a stack only without forcing it.", "quantifier": "all names and secrets providers", "why_tests_cant": "Names are arbitrary texts.", "anchors": ["sdk/python/lib/pulumi/automation/_local_workspace.py:LocalWorkspace.create_stack", "sdk/python/lib/pulumi/automation/_local_workspace.py:LocalWorkspace.select_stack", "sdk/python/lib/pulumi/automation/_local_workspace.py:LocalWorkspace.remove_stack"]}
{"id": "C83", "title": "The environment of a command", "statement": "A variable of the workspace wins over one of the process, and every command of a workspace uses the workspace's home directory.", "quantifier": "all environments, workspaces and variables", "why_tests_cant": "A test checks one variable.", "anchors": ["sdk/python/lib/pulumi/automation/_local_workspace.py:LocalWorkspace._run_pulumi_cmd_sync", "sdk/python/lib/pulumi/automation/_stack.py:Stack._run_pulumi_cmd_sync", "sdk/python/lib/pulumi/automation/_cmd.py:_run_pulumi_cmd"]}
{"id": "C84", "title": "The output of a command is delivered", "statement": "However the process is scheduled, each line of its output is given to the callback once and in order and is in the result, the call does not return before the process has ended, and it raises exactly when the exit code is not 0.", "quantifier": "all outputs, exit codes and schedules of the process", "why_tests_cant": "Depends on when the process writes and ends.", "anchors": ["sdk/python/lib/pulumi/automation/_cmd.py:_run_pulumi_cmd"]}
{"id": "C85", "title": "The class of a failure", "statement": "The class of the exception of a failed command is determined by what the command wrote, by the first of the documented messages it has; stack errors and conflicts come from the standard error alone, whatever the program prints.", "quantifier": "all outputs", "why_tests_cant": "Ranges over all texts, in which several of the messages may occur.", "anchors": ["sdk/python/lib/pulumi/automation/errors.py:create_command_error"]}
{"id": "C86", "title": "Create or select", "statement": "After create_or_select, the stack exists and is the current one, no other stack is touched, and any failure other than the stack existing already is raised.", "quantifier": "all sets of stacks, all behaviours of the CLI, all changes by others in between", "why_tests_cant": "Depends on a race.", "anchors": ["sdk/python/lib/pulumi/automation/_stack.py:Stack.create_or_select"]}
{"id": "C87", "title": "The CLI's version is checked", "statement": "A workspace is made exactly with a CLI whose version is at least the minimum and of its major version, or when the check is turned off.", "quantifier": "all versions and outputs of the CLI", "why_tests_cant": "Ranges over all versions, pre-releases among them.", "anchors": ["sdk/python/lib/pulumi/automation/_local_workspace.py:_parse_and_validate_pulumi_version", "sdk/python/lib/pulumi/automation/_minimum_version.py"]}
{"id": "C88", "title": "History and info", "statement": "The history of a stack is its whole list of updates, or the page of it that was asked for, and info is the newest one.", "quantifier": "all histories, pages and page sizes", "why_tests_cant": "Depends on what the CLI does without the flags.", "anchors": ["sdk/python/lib/pulumi/automation/_stack.py:Stack.history", "sdk/python/lib/pulumi/automation/_stack.py:Stack.info"]}
{"id": "C89", "title": "The outputs of a stack", "statement": "The outputs are those of the stack with their plain values, and each is marked secret exactly when there is a secret in it.", "quantifier": "all outputs, nested ones among them, and updates in between", "why_tests_cant": "Ranges over all values and over a race between two commands.", "anchors": ["sdk/python/lib/pulumi/automation/_local_workspace.py:LocalWorkspace.stack_outputs"]}
{"id": "C90", "title": "Import leaves no file", "statement": "Importing a deployment leaves no temporary file with it.", "quantifier": "all results of the command", "why_tests_cant": "A test of the failing path would need to look for the file.", "anchors": ["sdk/python/lib/pulumi/automation/_local_workspace.py:LocalWorkspace.import_stack"]}
{"id": "C91", "title": "Saved stack settings are read back", "statement": "Settings of a stack that were saved are what reading the settings of that stack gives next, whichever settings files there are.", "quantifier": "all settings, stack names and sets of files", "why_tests_cant": "Ranges over all values a config may have.", "anchors": ["sdk/python/lib/pulumi/automation/_stack_settings.py", "sdk/python/lib/pulumi/automation/_local_workspace.py:LocalWorkspace.save_stack_settings", "sdk/python/lib/pulumi/automation/_local_workspace.py:LocalWorkspace.stack_settings"]}
{"id": "C92", "title": "Reading and saving back changes nothing", "statement": "Reading the settings of a stack and saving them back leaves the stack's settings file with the same content.", "quantifier": "all files that the CLI accepts", "why_tests_cant": "Ranges over all files.", "anchors": ["sdk/python/lib/pulumi/automation/_stack_settings.py", "sdk/python/lib/pulumi/automation/_local_workspace.py:LocalWorkspace.save_stack_settings", "sdk/python/lib/pulumi/automation/_local_workspace.py:LocalWorkspace.stack_settings"]}
{"id": "C93", "title": "Settings do not interfere", "statement": "Saving the settings of a stack writes one file, inside the working directory, and changes neither the settings of a stack whose name ends in another part nor those of the project; and the other way round.", "quantifier": "all names, settings and sets of files", "why_tests_cant": "Ranges over all pairs of names.", "anchors": ["sdk/python/lib/pulumi/automation/_local_workspace.py:get_stack_settings_name", "sdk/python/lib/pulumi/automation/_local_workspace.py:LocalWorkspace.save_stack_settings", "sdk/python/lib/pulumi/automation/_local_workspace.py:LocalWorkspace.save_project_settings"]}
{"id": "C94", "title": "Saved project settings are read back", "statement": "Settings of a project that were saved are what reading the project's settings gives next, whichever settings files there are.", "quantifier": "all project settings and sets of files", "why_tests_cant": "Ranges over all settings, with instances of the SDK's own classes.", "anchors": ["sdk/python/lib/pulumi/automation/_project_settings.py", "sdk/python/lib/pulumi/automation/_local_workspace.py:LocalWorkspace.save_project_settings", "sdk/python/lib/pulumi/automation/_local_workspace.py:_load_project_settings"]}
{"id": "C95", "title": "The project and program of a stack", "statement": "create_stack, select_stack and create_or_select_stack make a workspace with the program and project given, in the directory given, and keep the settings of a project that is there already.", "quantifier": "all options, also those used before, disks and directories", "why_tests_cant": "Depends on the history of the options object.", "anchors": ["sdk/python/lib/pulumi/automation/_local_workspace.py:_inline_source_stack_helper", "sdk/python/lib/pulumi/automation/_local_workspace.py:_local_source_stack_helper", "sdk/python/lib/pulumi/automation/_local_workspace.py:LocalWorkspace.__init__", "sdk/python/lib/pulumi/automation/_local_workspace.py:default_project"]}
{"id": "C96", "title": "The entries of a history", "statement": "history gives each update as the CLI knows it: its kind, times, message, environment, config with secrets marked, and result.", "quantifier": "all histories and configs", "why_tests_cant": "Ranges over all updates, running ones and such with secrets among them.", "anchors": ["sdk/python/lib/pulumi/automation/_stack.py:Stack.history", "sdk/python/lib/pulumi/automation/_stack.py:UpdateSummary", "sdk/python/lib/pulumi/automation/_local_workspace.py:LocalWorkspace.get_all_config"]}
{"id": "C97", "title": "Lists of stacks and plugins", "statement": "list_stacks and list_plugins give every stack and plugin as the CLI knows them, and stack gives the current stack.", "quantifier": "all lists", "why_tests_cant": "Ranges over all lists, with any of the optional values missing.", "anchors": ["sdk/python/lib/pulumi/automation/_local_workspace.py:LocalWorkspace.list_stacks", "sdk/python/lib/pulumi/automation/_local_workspace.py:LocalWorkspace.stack", "sdk/python/lib/pulumi/automation/_local_workspace.py:LocalWorkspace.list_plugins"]}
{"id": "C98", "title": "Plugin commands", "statement": "remove_plugin removes exactly the plugins of the kind, name and version range given, and install_plugin installs the plugin given.", "quantifier": "all kinds, names, version ranges and plugins", "why_tests_cant": "Ranges over all combinations of arguments left out.", "anchors": ["sdk/python/lib/pulumi/automation/_local_workspace.py:LocalWorkspace.remove_plugin", "sdk/python/lib/pulumi/automation/_local_workspace.py:LocalWorkspace.install_plugin"]}
{"id": "C99", "title": "The provider of a dynamic resource stays with it", "statement": "Through every history of creating, updating and refreshing, the state of a dynamic resource holds the provider of the program that last created or updated it; deleting and refreshing run that provider, with the id and the state of the resource.", "quantifier": "all providers that leave the reserved key alone, all properties and all histories", "why_tests_cant": "Ranges over unboundedly long histories and arbitrary providers.", "anchors": ["sdk/python/lib/pulumi/dynamic/__main__.py:DynamicResourceProviderServicer.Create", "sdk/python/lib/pulumi/dynamic/__main__.py:DynamicResourceProviderServicer.Update", "sdk/python/lib/pulumi/dynamic/__main__.py:DynamicResourceProviderServicer.Read", "sdk/python/lib/pulumi/dynamic/__main__.py:DynamicResourceProviderServicer.Delete"]}
{"id": "C100", "title": "Results of a dynamic provider", "statement": "The id, properties, inputs and check failures that a method of a dynamic provider gives are exactly what is reported to the engine, and an exception of a method is the failure of the request.", "quantifier": "all providers, properties and results", "why_tests_cant": "Ranges over all nested results of arbitrary providers.", "anchors": ["sdk/python/lib/pulumi/dynamic/__main__.py:DynamicResourceProviderServicer.Create", "sdk/python/lib/pulumi/dynamic/__main__.py:DynamicResourceProviderServicer.Update", "sdk/python/lib/pulumi/dynamic/__main__.py:DynamicResourceProviderServicer.Check", "sdk/python/lib/pulumi/dynamic/dynamic.py:ResourceProvider.update"]}
{"id": "C101", "title": "Inputs of a dynamic resource", "statement": "The plain inputs that a program declares reach the methods of its provider as declared, without None entries; a provider that does not override check passes on everything the engine sends, unknown values at any depth among it.", "quantifier": "all plain inputs and previews", "why_tests_cant": "Ranges over all nested inputs, with unknowns anywhere.", "anchors": ["sdk/python/lib/pulumi/dynamic/dynamic.py:Resource.__init__", "sdk/python/lib/pulumi/dynamic/__main__.py:DynamicResourceProviderServicer.Check", "sdk/python/lib/pulumi/dynamic/dynamic.py:ResourceProvider.check"]}
{"id": "C102", "title": "Which provider checks and compares", "statement": "Checking and comparing use the provider of the new properties, or that of the old properties when the new one is not known yet.", "quantifier": "all old and new properties", "why_tests_cant": "Ranges over all combinations of old and new properties and providers.", "anchors": ["sdk/python/lib/pulumi/dynamic/__main__.py:DynamicResourceProviderServicer.Check", "sdk/python/lib/pulumi/dynamic/__main__.py:DynamicResourceProviderServicer.Diff"]}
{"id": "C103", "title": "Results of diff", "statement": "What a dynamic provider's diff says about changes, replacements, stable properties and the order of deletion is what the engine is told.", "quantifier": "all diff results", "why_tests_cant": "Ranges over all combinations of fields left out.", "anchors": ["sdk/python/lib/pulumi/dynamic/__main__.py:DynamicResourceProviderServicer.Diff", "sdk/python/lib/pulumi/dynamic/dynamic.py:DiffResult"]}
{"id": "C104", "title": "Refreshing a dynamic resource", "statement": "A refresh reports the id and properties that the provider reads, and that the resource is gone if the provider says so.", "quantifier": "all providers, properties and results", "why_tests_cant": "Ranges over all results of arbitrary providers.", "anchors": ["sdk/python/lib/pulumi/dynamic/__main__.py:DynamicResourceProviderServicer.Read", "sdk/python/lib/pulumi/dynamic/dynamic.py:ReadResult"]}
{"id": "C105", "title": "Constructing a dynamic resource", "statement": "A dynamic resource is registered with the properties given and its provider; properties that define the reserved key are rejected; the properties of the caller can be used again.", "quantifier": "all properties and sequences of constructor calls", "why_tests_cant": "Ranges over all properties and repeated uses of them.", "anchors": ["sdk/python/lib/pulumi/dynamic/dynamic.py:Resource.__init__"]}
{"id": "C106", "title": "Types of dynamic resources", "statement": "The type of a dynamic resource is determined by the module and name of its class, and differs for different modules or names.", "quantifier": "all classes, modules and names", "why_tests_cant": "Ranges over all pairs of names and chains of subclasses.", "anchors": ["sdk/python/lib/pulumi/dynamic/dynamic.py:Resource.__init_subclass__"]}
{"id": "C107", "title": "The same provider is pickled alike", "statement": "Providers with the same data are pickled to the same bytes, so that an unchanged provider is not seen as a change of the resource.", "quantifier": "all data of providers", "why_tests_cant": "Ranges over all nested data and all orders of insertion.", "anchors": ["sdk/python/lib/pulumi/dynamic/dynamic.py:serialize_provider"]}
{"id": "C108", "title": "Any number of providers can be pickled", "statement": "A provider that Python can pickle is pickled for every dynamic resource of a program, to bytes that do not depend on the resources before it.", "quantifier": "all providers and numbers of resources", "why_tests_cant": "Ranges over unboundedly many resources.", "anchors": ["sdk/python/lib/pulumi/dynamic/dynamic.py:serialize_provider"]}
{"id": "C109", "title": "Pickling leaves the pickle module alone", "statement": "Serialising a provider, whether it succeeds or raises, leaves the pickle module as it was.", "quantifier": "all providers, in any number", "why_tests_cant": "Ranges over all sequences of calls, with failures anywhere.", "anchors": ["sdk/python/lib/pulumi/dynamic/dynamic.py:serialize_provider"]}
{"id": "C110", "title": "Wrappers of types make no difference", "statement": "A property declared with type T, Optional[T], Input[T], InputType[T], any documented nesting of these, or Output around one of them, is converted as a T.", "quantifier": "all types T and all documented wrappers", "why_tests_cant": "Ranges over all types and nestings.", "anchors": ["sdk/python/lib/pulumi/_types.py:unwrap_type", "sdk/python/lib/pulumi/_types.py:unwrap_optional_type"]}
{"id": "C111", "title": "Input types take and send what was declared", "statement": "An input type is called with keyword arguments that are exactly those of its properties, those with a default being optional; anything else raises TypeError. Each property then reads as its argument or default, and the engine is sent exactly the properties that are not None, under their Pulumi names.", "quantifier": "all lists of properties, both ways to declare them, dict classes or not, base classes, arguments", "why_tests_cant": "Ranges over all class declarations and all calls.", "anchors": ["sdk/python/lib/pulumi/_types.py:input_type", "sdk/python/lib/pulumi/_types.py:_process_class", "sdk/python/lib/pulumi/_types.py:_init_fn", "sdk/python/lib/pulumi/_types.py:input_type_to_dict"]}
{"id": "C112", "title": "Assignments to an input type are read back and sent", "statement": "After any sequence of assignments to its properties each property of an input type reads as the value last assigned, or as before, and the engine is sent the properties that are then not None.", "quantifier": "all classes, instances and sequences of assignments", "why_tests_cant": "Ranges over all histories of assignments.", "anchors": ["sdk/python/lib/pulumi/_types.py:set", "sdk/python/lib/pulumi/_types.py:get", "sdk/python/lib/pulumi/_types.py:input_type"]}
{"id": "C113", "title": "Both ways to declare a class are equivalent", "statement": "An input or output type declared by annotations behaves like the one declared by an __init__, getters and empty setters: same calls accepted, same reads and assignments, same dict sent, same names.", "quantifier": "all lists of properties, base classes, translations, instances, arguments", "why_tests_cant": "Ranges over all declarations, both of which have to be compared on all uses.", "anchors": ["sdk/python/lib/pulumi/_types.py:_process_class", "sdk/python/lib/pulumi/_types.py:getter", "sdk/python/lib/pulumi/_types.py:_create_py_property"]}
{"id": "C114", "title": "Output types hold what the engine returned", "statement": "An output type made from what the engine returned has each property under its Pulumi name, None if it was left out; properties cannot be assigned; if the class is a dict the values are also its items under the names the class translates to, and it has no others. A declared default applies to properties that were left out.", "quantifier": "all lists of properties, translations, base classes and received dicts", "why_tests_cant": "Ranges over all declarations and all replies.", "anchors": ["sdk/python/lib/pulumi/_types.py:output_type", "sdk/python/lib/pulumi/_types.py:output_type_from_dict", "sdk/python/lib/pulumi/_types.py:_translate_name"]}
{"id": "C115", "title": "Instances are equal if their properties are", "statement": "Two instances of an input type are equal exactly if all their properties are.", "quantifier": "all classes and all instances", "why_tests_cant": "Ranges over all pairs of instances and their histories.", "anchors": ["sdk/python/lib/pulumi/_types.py:_process_class"]}
{"id": "C116", "title": "Input types can be subclassed", "statement": "A subclass of an input type that is not decorated takes, reads and sends the same; decorating a class twice, or decorating a subclass, raises AssertionError; a property without default after one with a default raises TypeError. What a base class or subclass declares is not lost.", "quantifier": "all class declarations, subclass bodies and arguments", "why_tests_cant": "Ranges over all class hierarchies.", "anchors": ["sdk/python/lib/pulumi/_types.py:_process_class", "sdk/python/lib/pulumi/_types.py:input_type", "sdk/python/lib/pulumi/_types.py:output_type", "sdk/python/lib/pulumi/_types.py:_py_properties"]}
{"id": "C117", "title": "Names and types of a resource's properties", "statement": "What the engine returns under the Pulumi name of a property is found under its Python name and converted by its declared type; names given in additional_secret_outputs, ignore_changes and replace_on_changes are sent as Pulumi names. The same holds in subclasses.", "quantifier": "all resource classes, either way to declare them, all outputs and option lists", "why_tests_cant": "Ranges over all classes and replies.", "anchors": ["sdk/python/lib/pulumi/_types.py:resource_types", "sdk/python/lib/pulumi/_types.py:resource_pulumi_to_py_names", "sdk/python/lib/pulumi/_types.py:resource_py_to_pulumi_names", "sdk/python/lib/pulumi/runtime/resource.py:_translate_ignore_changes", "sdk/python/lib/pulumi/runtime/resource.py:_translate_additional_secret_outputs", "sdk/python/lib/pulumi/runtime/rpc.py:resolve_outputs"]}
{"id": "C118", "title": "JSON of input types", "statement": "runtime.to_json writes every object made of nulls, booleans, numbers, texts, sequences, mappings with text keys and input types, nested in any way, as one line of ASCII JSON that reads back as just what the object stands for: input types as objects of their non-None properties under Pulumi names, every character of every text as it was. An object with anything else in it raises TypeError.", "quantifier": "all objects of any depth and size, all texts", "why_tests_cant": "Ranges over all nestings and all Unicode texts.", "anchors": ["sdk/python/lib/pulumi/runtime/_json.py:to_json", "sdk/python/lib/pulumi/runtime/_json.py:_to_json_serializable_obj", "sdk/python/lib/pulumi/_types.py:input_type_to_dict"]}
{"id": "C119", "title": "Log messages reach the engine", "statement": "Every message that a program logs reaches the engine once, with its severity, text, stream, ephemeral flag and, if a resource is given, that resource's URN, before the run has ended, unless the request is refused or the resource has no URN. Messages without a resource are there when the call returns, and in order. Without an engine, messages are printed with their severity and debug messages are dropped.", "quantifier": "all programs, all calls from the program, callbacks and coroutines, all schedules, all ways in which URNs are resolved", "why_tests_cant": "Ranges over all interleavings of logging, URN resolution and the end of the run.", "anchors": ["sdk/python/lib/pulumi/log.py:debug", "sdk/python/lib/pulumi/log.py:info", "sdk/python/lib/pulumi/log.py:warn", "sdk/python/lib/pulumi/log.py:error", "sdk/python/lib/pulumi/log.py:_log", "sdk/python/lib/pulumi/runtime/stack.py:wait_for_rpcs"]}
{"id": "C120", "title": "A program is run with what the request asks for", "statement": "The program that the language host starts is run with the project, stack, organization, mode, parallelism, addresses and working directory of the request, and its sys.argv is the program and the arguments of the request. The engine is told that the program succeeded exactly if it ran and returned.", "quantifier": "all run requests: all names, all numbers, all lists of arguments", "why_tests_cant": "Ranges over all texts and lists of arguments; the arguments pass through a command line that the executor shares with its own options.", "anchors": ["sdk/python/cmd/pulumi-language-python/main.go:constructArguments", "sdk/python/cmd/pulumi-language-python/main.go:Run", "sdk/python/cmd/pulumi-language-python-exec"]}
{"id": "C121", "title": "Configuration arrives as it was given", "statement": "Each key that a request configures has in the program exactly the value given, whatever characters it has, and is a secret exactly if the request lists it as one; a key that is not configured has no value.", "quantifier": "all configurations with distinct keys, all texts, all environments of the language host", "why_tests_cant": "Ranges over all texts that are written as JSON by one language and read by another, and all environments.", "anchors": ["sdk/python/cmd/pulumi-language-python/main.go:constructConfig", "sdk/python/cmd/pulumi-language-python/main.go:constructConfigSecretKeys", "sdk/python/cmd/pulumi-language-python-exec", "sdk/python/lib/pulumi/runtime/config.py:get_config_env", "sdk/python/lib/pulumi/runtime/config.py:set_all_config"]}
{"id": "C122", "title": "The stack trace shown for a failed program", "statement": "When a program fails, the trace that is shown is the end of the whole trace: it has every frame from the first frame of the program on, and none of the frames of the executor, the import system and the SDK before it.", "quantifier": "all traces, all paths of programs and files, all working directories", "why_tests_cant": "Ranges over all paths, with their dots, slashes and extensions, and all traces.", "anchors": ["sdk/python/cmd/pulumi-language-python-exec:_get_user_stacktrace"]}
{"id": "C123", "title": "Policy packs start with the configuration and settings of their environment", "statement": "The program of a policy pack reads the configuration of the environment, with secrets marked as such; its project, stack and mode are those of the environment if all are given; the exit code is 0 only if the program was run and returned or asked for it.", "quantifier": "all arguments, all environments, all programs", "why_tests_cant": "Ranges over all environments and all ways in which a program ends.", "anchors": ["sdk/python/lib/pulumi/policy/__main__.py:main"]}
{"id": "C124", "title": "Dependencies of computed outputs are sound", "statement": "Whatever a program computes from the outputs of resources with from_input, apply, all, lifted access, secret and unsecret, the result depends only on the outputs of the resources it reports as its dependencies: if those resources have the same outputs in another run, the result shows the same value, knownness, secretness and dependencies, under every schedule of both runs.", "quantifier": "every expression, every callback, every world of resource outputs, every two complete executions, previews and updates", "why_tests_cant": "two runs under all schedules and all callbacks have to be compared; a test runs one program on one world", "anchors": ["sdk/python/lib/pulumi/output.py:Output.apply", "sdk/python/lib/pulumi/output.py:Output.all", "sdk/python/lib/pulumi/output.py:Output.from_input", "sdk/python/lib/pulumi/output.py:Output.secret", "sdk/python/lib/pulumi/output.py:Output.__getattr__"]}
{"id": "C125", "title": "Computed outputs that are not secret reveal no secret", "statement": "A program that does not call unsecret cannot make a result that is not marked secret depend on a secret: if two worlds agree on every output that is not secret, a result not marked secret in one shows the same in the other.", "quantifier": "every expression without unsecret, every callback, every two worlds, every two complete executions", "why_tests_cant": "it is a statement about pairs of runs with different secrets, for all programs", "anchors": ["sdk/python/lib/pulumi/output.py:Output.apply", "sdk/python/lib/pulumi/output.py:Output.all", "sdk/python/lib/pulumi/output.py:Output.secret"]}
{"id": "C126", "title": "Changing a resource affects only what declares a dependency on it", "statement": "In a program of many resources, if the engine answers one resource differently, every resource that does not depend on it, directly or through other resources, is registered with the same inputs and has the same outputs.", "quantifier": "every program whose resources use earlier ones, every engine, every resource", "why_tests_cant": "it quantifies over whole programs and over what the engine may answer", "anchors": ["sdk/python/lib/pulumi/output.py:Output", "sdk/python/lib/pulumi/runtime/rpc.py:resolve_outputs"]}
{"id": "C127", "title": "The dependencies listed in a request account for its values", "statement": "For a property present in a registration request of a custom resource, if the resources the request lists as that property's dependencies have the same outputs in another run, the other request has the same value for the property and lists the same dependencies.", "quantifier": "every expression, every two executions, every set of inputs with distinct wire names", "why_tests_cant": "pairs of runs, all callbacks and all schedules", "anchors": ["sdk/python/lib/pulumi/runtime/rpc.py:serialize_properties", "sdk/python/lib/pulumi/runtime/rpc.py:serialize_property", "sdk/python/lib/pulumi/output.py:Output.apply"]}
{"id": "C128", "title": "The plain part of a request reveals no secret", "statement": "For a program without unsecret and an engine that supports secrets, what a request has for a property, when it is not marked secret and not unknown, is the same in every run whose resources agree on what is not secret; also whether the property is present.", "quantifier": "every expression without unsecret, every two worlds, every two executions, every set of inputs with distinct wire names", "why_tests_cant": "pairs of runs with different secrets, for all programs", "anchors": ["sdk/python/lib/pulumi/runtime/rpc.py:serialize_properties", "sdk/python/lib/pulumi/runtime/rpc.py:serialize_property", "sdk/python/lib/pulumi/output.py:Output.apply"]}
{"id": "C129", "title": "The engine reads what the program passes", "statement": "Every value that a program passes to a resource, a component or a function (data, Outputs known or unknown, secret or not, awaitables, typed input objects, resources, assets, archives, at any nesting) is read by the engine as what the program means by it: data as the same data under the translated names, a known Output as its value, marked secret if it is secret, an unknown one as an unknown value, or, where output values are sent, as an output value with the same flags and the sorted list of the URNs it depends on; resources as references with URN and id; assets and archives as made from the same thing; and of the top-level inputs exactly those that are not null, under their names. Negations: strings that are one of the engine's seven reserved marks are read as unknown; an unknown secret Output arrives as a public unknown; a resource with a secret id, or with an unknown URN, is refused.", "quantifier": "every value that may be passed, every declared type, every environment (names, resources, features), every option of the engine's reader that keeps unknowns, secrets and references, with and without output values", "why_tests_cant": "The writer (Python) and the reader (Go) are two programs in two languages: unit tests of either compare with recorded wire forms, and integration tests try a few values; the agreement must hold for every nesting.", "anchors": ["sdk/python/lib/pulumi/runtime/rpc.py:serialize_properties", "sdk/python/lib/pulumi/runtime/rpc.py:serialize_property", "sdk/go/common/resource/plugin/rpc.go:MarshalPropertyValue", "sdk/go/common/resource/plugin/rpc.go:UnmarshalPropertyValue", "sdk/go/common/resource/asset.go:DeserializeAsset", "pkg/resource/deploy/source_eval.go"]}
{"id": "C130", "title": "The program sees what the engine answers", "statement": "Every value that the engine may return is seen by the program as specified: data as data, unknowns as unknown in previews and None otherwise, a secret as one mark around the whole list or object that contains it, references as the registered class or the id or the URN, assets and archives without hashes, hidden and null names left out; what is seen is determined, and something is seen of every such value. Negations: an unknown value known to be a boolean, number, list or object is seen as a string of the engine's mark; a text asset with empty text makes the program fail, and this is what comes back when a program passes one.", "quantifier": "every answer of the engine, every combination of accepted features, previews and updates, with and without unknowns kept, every registry of classes", "why_tests_cant": "The reader must cope with every nesting of marks that the engine can produce; the two sides live in different languages, and tests have fixed samples.", "anchors": ["sdk/python/lib/pulumi/runtime/rpc.py:deserialize_properties", "sdk/python/lib/pulumi/runtime/rpc.py:deserialize_property", "sdk/go/common/resource/plugin/rpc.go:MarshalPropertyValue", "sdk/go/common/resource/plugin/rpc.go:UnmarshalPropertyValue", "sdk/go/common/resource/asset.go:DeserializeAsset", "pkg/resource/deploy/source_eval.go"]}
{"id": "C131", "title": "Values survive the trip through the engine", "statement": "What one part of the engine writes another part with the same options reads as the same value, for every value without reserved strings; data that a program passes and the engine returns is what the program gets back, without the names whose value is None; and a secret Output with data comes back as a secret with that data.", "quantifier": "every value, every nesting, every option that keeps unknowns, secrets and references", "why_tests_cant": "A round trip over all values of a recursive type cannot be enumerated.", "anchors": ["sdk/python/lib/pulumi/runtime/rpc.py:serialize_property", "sdk/python/lib/pulumi/runtime/rpc.py:deserialize_property", "sdk/go/common/resource/plugin/rpc.go:MarshalPropertyValue", "sdk/go/common/resource/plugin/rpc.go:UnmarshalPropertyValue", "sdk/go/common/resource/asset.go:DeserializeAsset", "pkg/resource/deploy/source_eval.go"]}
{"id": "C132", "title": "Nobody is sent or handed what they did not ask for", "statement": "A process that reads or writes values over the wire says whether it wants secrets, unknowns, resource references, output values, assets, null properties and internal names. Whatever arrives, a reader that does not want one of these never gets it, at any depth, and a writer that is told to leave one out never sends it; and a writer that is told to refuse unknowns refuses exactly the values that contain one.", "quantifier": "every value, every nesting, every combination of the options", "why_tests_cant": "The options interact at every depth of a recursive type; tests fix a few values and a few combinations.", "anchors": ["sdk/go/common/resource/plugin/rpc.go:MarshalOptions", "sdk/go/common/resource/plugin/rpc.go:MarshalPropertyValue", "sdk/go/common/resource/plugin/rpc.go:UnmarshalPropertyValue", "sdk/go/common/resource/plugin/rpc.go:UnmarshalProperties"]}
{"id": "C133", "title": "The checkpoint never forgets a resource", "statement": "Whenever an update stops or crashes, at any point and after any history of updates that stopped anywhere, the stack's checkpoint accounts for every physical resource that belongs to the stack: it lists a resource with its ID, or a pending create for its URN. So the next update can manage it, or warns of it.", "quantifier": "every history of updates, every schedule of parallel steps, every crash point, every failure of providers and of saving", "why_tests_cant": "A crash may come between any two effects of any interleaving of steps; tests try a handful.", "anchors": ["pkg/backend/snapshot.go:SnapshotManager", "pkg/resource/deploy/step.go:Apply", "pkg/resource/deploy/step_executor.go:executeStep", "pkg/engine/update.go:OnResourceStepPost", "pkg/resource/deploy/deployment_executor.go:rebuildBaseState"]}
{"id": "C134", "title": "Creates that may have happened are on record", "statement": "From when the engine goes ahead with a create until its result is recorded, the checkpoint lists a pending create for the resource's URN, whatever else is written meanwhile. A pending create left over by an interrupted update stays in the checkpoint through all later updates.", "quantifier": "every history of updates, every event, every schedule", "why_tests_cant": "It speaks of all future updates, whatever they do and however they end.", "anchors": ["pkg/backend/snapshot.go:doCreate", "pkg/backend/snapshot.go:snap", "pkg/backend/snapshot.go:saveSnapshot"]}
{"id": "C135", "title": "Failed and skipped steps leave no trace, and an update's end writes everything", "statement": "After a step has failed, the checkpoint lists the resources it listed before and no operation of that step. A resource that is skipped because it is not a target is not listed. When an update ends after the end of a step, the checkpoint holds all that the engine knows, including what writes that were left out for being without changes would have recorded.", "quantifier": "every state of an update, every step, every schedule", "why_tests_cant": "The state in which a step ends depends on everything that runs beside it.", "anchors": ["pkg/backend/snapshot.go:End", "pkg/backend/snapshot.go:mustWrite", "pkg/backend/snapshot.go:NewSnapshotManager", "pkg/backend/snapshot.go:Close"]}
{"id": "C136", "title": "The integrity check accepts exactly the intact checkpoints", "statement": "The check of a checkpoint's integrity succeeds exactly if every resource's provider, parent and dependencies are listed before it (a provider may be its own), every provider can be referred to, and a URN listed before is only listed again for a resource that is to be deleted. When it refuses a checkpoint, the reason it gives is true of the first resource that is at fault.", "quantifier": "every list of resources, whatever their fields", "why_tests_cant": "Orders and combinations of references are unbounded.", "anchors": ["pkg/resource/deploy/snapshot.go:VerifyIntegrity"]}
{"id": "C137", "title": "Resources found to be gone leave an intact list", "statement": "When a refresh finds resources to be gone, what is left of an intact list of resources is intact again, unless a provider in use is gone: each remaining resource keeps exactly its dependencies on resources that remain before it and its parent if that remains, and has no parent otherwise; nothing else about it changes.", "quantifier": "every intact list, every set of resources that are gone", "why_tests_cant": "Any subset of the resources may be gone, at any depth of the hierarchy.", "anchors": ["pkg/resource/deploy/deployment_executor.go:rebuildBaseState", "pkg/resource/deploy/deployment_executor.go:undangleParentResources"]}
{"id": "C138", "title": "Every checkpoint an update leaves can be used by the next", "statement": "Wherever an update stops, after any number of earlier updates that may have stopped anywhere, the checkpoint passes the integrity check, so that the next update does not refuse it.", "quantifier": "every history of updates, every crash point", "why_tests_cant": "Which of the resources have been dealt with when an update stops depends on the schedule.", "anchors": ["pkg/backend/snapshot.go:snap", "pkg/backend/snapshot.go:saveSnapshot", "pkg/resource/deploy/snapshot.go:VerifyIntegrity", "pkg/resource/deploy/step.go:Apply"]}
{"id": "C139", "title": "References follow resources that are renamed", "statement": "When a checkpoint is saved, every reference to an alias of a listed resource becomes a reference to that resource's URN and every other one stays. Saving is refused exactly if two resources share an alias or a provider reference is not one. A reference to a resource that is listed stays a reference to that resource.", "quantifier": "every list of resources and aliases", "why_tests_cant": "Aliases can be chained, shared and swapped.", "anchors": ["pkg/resource/deploy/snapshot.go:NormalizeURNReferences", "pkg/resource/deploy/state_builder.go:withUpdatedProvider"]}
{"id": "C140", "title": "Dependents are found exactly", "statement": "For a resource of an intact checkpoint that lists no URN twice, the dependents found are exactly the resources that depend on it through any chain of dependencies and providers, each once, and each after everything it depends on. Whatever the checkpoint, they are what a scan of the rest of the list finds.", "quantifier": "every checkpoint, resource, set of ignored URNs", "why_tests_cant": "Chains of dependents have any length and shape.", "anchors": ["pkg/resource/graph/dependency_graph.go:DependingOn"]}
{"id": "C141", "title": "Deletions that run in parallel respect dependencies", "statement": "The deletions of an update are put into batches that run one after the other: every deletion is in exactly one batch, whoever names a condemned resource or is its child goes in an earlier batch, and no batch is later than it has to be. In an intact checkpoint the batches go exactly by who needs whom, including everything that depends on a component and so on its children. The order in which Go walks its sets makes no difference to this.", "quantifier": "every checkpoint, every set of deletions, every order of a map walk", "why_tests_cant": "The order of a map walk is random and the graphs are unbounded.", "anchors": ["pkg/resource/deploy/step_generator.go:ScheduleDeletes", "pkg/resource/graph/dependency_graph.go:DependenciesOf", "pkg/resource/graph/dependency_graph.go:NewDependencyGraph"]}
{"id": "C142", "title": "An update deletes exactly what the program has dropped", "statement": "Without targets an update deletes the states that were superseded and those whose URN the program has neither registered nor read, under their URN or as an alias, and nothing else; each once, from the end of the checkpoint to its beginning, so that serial deletions respect dependencies. What was superseded before is deleted first. Destroying a stack deletes everything.", "quantifier": "every checkpoint, every set of registrations", "why_tests_cant": "Which URNs are dropped depends on the program.", "anchors": ["pkg/resource/deploy/step_generator.go:GenerateDeletes", "pkg/resource/deploy/step_generator.go:GeneratePendingDeletes"]}
{"id": "C143", "title": "A targeted destroy takes its targets' dependents along, or nothing", "statement": "With targets, what is deleted is exactly what the program has dropped and the targets implicate: targets, their children, and whoever depends on what is implicated. If that takes in something that is not a target, either dependents were asked for, or the update deletes nothing, and a preview reports it. What is left of the checkpoint is intact.", "quantifier": "every checkpoint, set of targets, program", "why_tests_cant": "The targets and their dependents are arbitrary.", "anchors": ["pkg/resource/deploy/step_generator.go:GenerateDeletes", "pkg/resource/deploy/step_generator.go:determineAllowedResourcesToDeleteFromTargets", "pkg/resource/deploy/step_generator.go:getTargetDependents"]}
{"id": "C144", "title": "Replacing a resource by deleting it first takes along exactly those whose replacement that forces", "statement": "When a resource is deleted before it is replaced, the resources deleted with it are those that depend on it, that the program has not come to yet, and whose provider is among what is lost or reports that the loss of the inputs that depend on it forces a replacement. Whoever uses a provider that is lost goes with it. An error only ever comes from a provider.", "quantifier": "every checkpoint, resource, provider", "why_tests_cant": "What providers answer is arbitrary.", "anchors": ["pkg/resource/deploy/step_generator.go:calculateDependentReplacements"]}
{"id": "C145", "title": "Editing the state by hand keeps it intact", "statement": "Deleting a resource from the state succeeds exactly if it is not protected, nothing depends on it and it has no children; otherwise the error says which of these holds and lists them. The result of a deletion or of unprotecting is intact if the state was. A URN locates a resource exactly if it is the only one with it.", "quantifier": "every checkpoint and resource", "why_tests_cant": "Any resource can be named.", "anchors": ["pkg/resource/edit/operations.go:DeleteResource", "pkg/resource/edit/operations.go:UnprotectResource", "pkg/resource/edit/operations.go:LocateResource", "pkg/cmd/pulumi/state.go:locateStackResource"]}
{"id": "C146", "title": "Destroying all but protected resources spares what they need", "statement": "A destroy that excludes protected resources spares exactly these and everything they require through any chain of dependencies, parents and providers, deletes the rest, leaves an intact checkpoint and is never refused because of its targets.", "quantifier": "every checkpoint, every order of a map walk", "why_tests_cant": "The order of a map walk is random and the graphs are unbounded.", "anchors": ["pkg/cmd/pulumi/destroy.go:seperateProtected", "pkg/cmd/pulumi/destroy.go:handleExcludeProtected", "pkg/resource/graph/dependency_graph.go:TransitiveDependenciesOf", "pkg/resource/graph/dependency_graph.go:markAsDependency"]}
{"id": "C147", "title": "The parts of a URN can be read back from it", "statement": "The stack, project, qualified type and name a URN was made of can be read back from it exactly if none of them contains the separator and none but the name ends with a colon, and its own type if in addition that has no qualifier. The URNs the check of their form accepts, of stacks with a name, are exactly those made of such parts, and no two choices of parts make the same URN.", "quantifier": "every stack, project, type and name, as arbitrary texts", "why_tests_cant": "names and types are arbitrary texts; tests split a handful of well-behaved URNs", "anchors": ["sdk/go/common/resource/urn.go:NewURN", "sdk/go/common/resource/urn.go:IsValid", "sdk/go/common/resource/urn.go:Rename"]}
{"id": "C148", "title": "References to providers survive being written and read", "statement": "A reference to a provider is read back as it was written exactly if its ID does not contain the separator or start with a colon. Whatever is read as a reference names the URN of a provider, and writing it gives back what was read.", "quantifier": "every URN of a provider and every ID, and every text", "why_tests_cant": "IDs come from providers and may be any text", "anchors": ["pkg/resource/deploy/providers/reference.go:ParseReference", "pkg/resource/deploy/providers/reference.go:Reference.String", "pkg/resource/deploy/providers/reference.go:validateURN"]}
{"id": "C149", "title": "Renaming a stack moves everything in its checkpoint", "statement": "Renaming a stack, and perhaps its project, turns every URN in the checkpoint into that of the same resource in the new stack and changes nothing else. The result is intact, each resource refers to the ones it referred to before, and renaming back restores the checkpoint. A checkpoint that is not intact is refused.", "quantifier": "every intact checkpoint with any resources, references and pending operations, every new name and project", "why_tests_cant": "checkpoints are unbounded graphs of references; tests rename one small stack", "anchors": ["pkg/resource/edit/operations.go:RenameStack"]}
{"id": "C150", "title": "Renaming a resource in the state changes its name and nothing else, or fails", "statement": "Renaming a resource in an intact state is refused unless exactly one resource has the URN and none the new one. Otherwise it crashes with nothing saved exactly if the resource has children, is the provider of some resource, or is a provider whose new name has the separator in it; else it changes the name in the URN of the resource and in the dependencies of the others, nothing else, keeps the state intact and every reference.", "quantifier": "every intact state, every URN of a stack with a name, every new name", "why_tests_cant": "states are unbounded graphs of references; tests rename one resource of a small state", "anchors": ["pkg/cmd/pulumi/state_rename.go:newStateRenameCommand", "pkg/cmd/pulumi/state.go:totalStateEdit"]}
{"id": "C151", "title": "Property paths are read as they are written", "statement": "A path written by the engine as text is read back as the same path, whatever its names and indices, unless a name is empty or ends with a backslash; so different paths have different texts. Plain names may be quoted or not, dots before a key may be repeated, and [*], .* and [\"*\"] all mean the wildcard. One path covers another exactly if its keys are the first keys of the other, with * for any key.", "quantifier": "every path and every text that continues it; every pair of paths", "why_tests_cant": "A test writes down a handful of paths; the properties are about every text, every path and every value they are applied to.", "anchors": ["sdk/go/common/resource/properties_path.go:ParsePropertyPath", "sdk/go/common/resource/properties_path.go:String", "sdk/go/common/resource/properties_path.go:Contains"]}
{"id": "C152", "title": "Getting, setting and deleting values at paths", "statement": "What is set at a path is what is read there, and nothing apart from the path changes; what is deleted is gone, or null in an array. Setting and deleting work exactly if all but the last key lead to an object, or to an array that has the index. Nothing inside a secret is reached.", "quantifier": "every value, path and new value", "why_tests_cant": "A test writes down a handful of paths; the properties are about every text, every path and every value they are applied to.", "anchors": ["sdk/go/common/resource/properties_path.go:Get", "sdk/go/common/resource/properties_path.go:Set", "sdk/go/common/resource/properties_path.go:Delete"]}
{"id": "C153", "title": "replaceOnChanges replaces exactly what it covers", "statement": "A resource with changes is replaced exactly if its provider asks for it or the path of one of the changes, or a changed key, is covered by one of the replaceOnChanges paths, or if its last initialization failed and they cover #initerror, as * does. The changes shown are marked accordingly and nothing else of the provider's answer changes. It fails exactly if there is something to decide and one of its paths, or the path of a change, cannot be read.", "quantifier": "every answer of the provider, every list of paths, with and without initialization errors", "why_tests_cant": "A test writes down a handful of paths; the properties are about every text, every path and every value they are applied to.", "anchors": ["pkg/resource/deploy/step_generator.go:applyReplaceOnChanges", "sdk/go/common/resource/plugin/provider.go:Replace", "sdk/go/common/resource/properties_path.go:Contains"]}
{"id": "C154", "title": "ignoreChanges keeps the old values and nothing else", "statement": "When an update goes on, every ignored path has in its inputs the value it had before (none, or null in an array, if it had none), however the ignored paths overlap, and everything apart from them is what the program said. The old inputs are not modified. The engine never panics on a path that has a key. If the paths do not overlap, the update is refused exactly because of those that had a value for which the new inputs have no place.", "quantifier": "all inputs, all old inputs, all lists of texts as ignoreChanges", "why_tests_cant": "The inputs, the old inputs and the copy share maps, so what one path writes another may see; a test tries one or two paths on one pair of inputs.", "anchors": ["pkg/resource/deploy/step_generator.go:processIgnoreChanges", "sdk/go/common/resource/properties_path.go:Set", "sdk/go/common/resource/properties_path.go:Delete", "sdk/go/common/resource/properties.go:Copy"]}
{"id": "C155", "title": "What a replacement gets of ignored properties", "statement": "When a resource that ignores changes is replaced, its new incarnation is checked with the inputs of the program: ignored properties are not ignored for it.", "quantifier": "all inputs, all old inputs, all lists of paths that do not overlap", "why_tests_cant": "It takes a replacement after an ignored change below a property; the copy being shallow shows nowhere else.", "anchors": ["pkg/resource/deploy/step_generator.go:generateStepsFromDiff", "pkg/resource/deploy/step_generator.go:processIgnoreChanges", "sdk/go/common/resource/properties.go:Copy"]}
{"id": "C156", "title": "Every resource of the program is made once", "statement": "In an update that succeeds, every registration and every read is answered by steps that make exactly one new state, with the URN of that resource. No two new states have the same URN: a second registration or read of a URN ends the update.", "quantifier": "all checkpoints, programs (lists of registrations and reads), targets and answers of providers, checks and policies", "why_tests_cant": "A registration takes one of more than ten ways through the generator, depending on what came before it; tests exercise each with one or two resources.", "anchors": ["pkg/resource/deploy/step_generator.go:GenerateSteps", "pkg/resource/deploy/step_generator.go:GenerateReadSteps", "pkg/resource/deploy/step_generator.go:generateURN"]}
{"id": "C157", "title": "Every resource of the checkpoint meets one fate", "statement": "In an update that succeeds, every resource of the checkpoint is either kept (as it is, updated or read again) by exactly one step, the one of its own URN, and deleted by none, or deleted by exactly one step and kept by none. What the program has no more is deleted; what was deleted ahead of another's replacement is made again or forgotten.", "quantifier": "all checkpoints with distinct URNs and readable provider references, all programs, all answers", "why_tests_cant": "Deletions come from three places (leftovers, replacements, the end of the update) that know of each other only by sets of URNs and marks on states; a double or forgotten deletion shows only in combinations.", "anchors": ["pkg/resource/deploy/step_generator.go:GenerateSteps", "pkg/resource/deploy/step_generator.go:GenerateDeletes", "pkg/resource/deploy/step_generator.go:GeneratePendingDeletes", "pkg/resource/deploy/step.go:DeleteStep", "pkg/resource/deploy/deployment_executor.go:Execute"]}
{"id": "C158", "title": "No two resources take over the same one", "statement": "No two resources of the program take over the same resource of the checkpoint, by URN or by alias.", "quantifier": "all checkpoints, programs with aliases and answers", "why_tests_cant": "It depends on the order of registrations and on every pair of URNs and aliases.", "anchors": ["pkg/resource/deploy/step_generator.go:generateSteps"]}
{"id": "C159", "title": "Protected resources are not deleted", "statement": "An update does not delete or replace a resource that is protected in the checkpoint as long as the program protects it or does not register it.", "quantifier": "all checkpoints, programs and answers, all resources", "why_tests_cant": "A deletion can be caused by another resource; tests try to delete or replace the protected resource itself.", "anchors": ["pkg/resource/deploy/step_generator.go:generateStepsFromDiff", "pkg/resource/deploy/step.go:DeleteStep.Apply"]}
{"id": "C160", "title": "An update with targets leaves the others alone", "statement": "With --target only the targets, and with --target-dependents what is reached from them through parents, dependencies and providers, are created, updated or replaced; others are deleted only with a target they depend on; and nothing is made that depends on a resource whose creation was skipped.", "quantifier": "all checkpoints, target lists, programs and answers", "why_tests_cant": "Whether a resource is a target may depend on a chain of registrations of any length.", "anchors": ["pkg/resource/deploy/step_generator.go:isTargetedForUpdate", "pkg/resource/deploy/step_generator.go:GenerateSteps"]}
{"id": "C161", "title": "An update fails no assertion", "statement": "Whatever the program registers or reads, the engine does not crash on an old state that is marked for deletion already.", "quantifier": "all checkpoints, targets, programs and answers", "why_tests_cant": "The assertions are about marks other steps of the same update have set.", "anchors": ["pkg/resource/deploy/step_generator.go:generateSteps", "pkg/resource/deploy/step.go:NewSameStep", "pkg/resource/deploy/step.go:NewDeleteReplacementStep"]}
{"id": "C162", "title": "Replacements are done in order", "statement": "Where the old resource is deleted before it is replaced, exactly one step before the creation deletes it, and before that all that goes with it is deleted, dependents first. Where the new one is created first, the old one is deleted after it and not before.", "quantifier": "all checkpoints, programs and answers, all replaced resources", "why_tests_cant": "A dependent's deletion and creation belong to different registrations, with any number of others in between.", "anchors": ["pkg/resource/deploy/step_generator.go:generateStepsFromDiff", "pkg/resource/deploy/step_generator.go:GenerateDeletes"]}
{"id": "C163", "title": "A registration does what the provider's diff says", "statement": "A registration that is accepted (its parent is known, its URN is new, its inputs check, no policy objects, it is no import) and that is in the scope of the update is carried out exactly as the provider's diff, after replaceOnChanges, calls for: a resource the checkpoint does not have is created; one without changes is left as it is; one with changes, or whose creation did not finish, is updated; one with a change that calls for replacement is replaced, creating the new one first unless the program, or else the provider, wants the old one deleted first; and a replacement of a resource that both the checkpoint and the program protect is refused.", "quantifier": "every checkpoint, every set of options, every state an update can be in, every registration and every answer of the provider", "why_tests_cant": "the answer depends on the checkpoint, on everything registered before, on the targets and on the combination of the provider's answer with replaceOnChanges, protect and deleteBeforeReplace: there are more combinations than tests", "anchors": ["pkg/resource/deploy/step_generator.go:generateSteps", "pkg/resource/deploy/step_generator.go:generateStepsFromDiff"]}
{"id": "C164", "title": "A parent is registered before its children", "statement": "Whenever a registration or a read of a resource leads to steps, the parent it names was registered before, and the stack itself names no parent.", "quantifier": "every checkpoint, every set of options, every state an update can be in, every registration and read", "why_tests_cant": "it must hold after any history of events", "anchors": ["pkg/resource/deploy/step_generator.go:checkParent"]}
{"id": "C165", "title": "Two property values are equal exactly if they are the same", "statement": "Whether two property values are equal does not depend on which is asked of the other; a value is equal to itself; and values equal to the same value are equal. Arrays are compared element by element, objects key by key with nulls for what is missing, assets and archives by their hashes, and references by URN and id.", "quantifier": "all property values without outputs whose assets can be hashed", "why_tests_cant": "tests compare chosen pairs; symmetry and transitivity are about all pairs and triples of nested values", "anchors": ["sdk/go/common/resource/properties_diff.go:DeepEquals"]}
{"id": "C166", "title": "There is a difference exactly where values are not equal", "statement": "Asking how two values differ always gives an answer, and the answer is 'not at all' exactly if the values, without ignored keys, are equal.", "quantifier": "all pairs of property values and all sets of ignored keys", "why_tests_cant": "Diff and DeepEquals are two recursions over the same values; that they agree is about all values", "anchors": ["sdk/go/common/resource/properties_diff.go:Diff", "sdk/go/common/resource/properties_diff.go:DeepEquals"]}
{"id": "C167", "title": "A diff turns the old value into the new one", "statement": "Making the additions, deletions and updates of a diff in the old value gives the new value.", "quantifier": "all pairs of property values without outputs", "why_tests_cant": "a diff that misses a change in some shape of value is not seen by tests of other shapes", "anchors": ["sdk/go/common/resource/properties_diff.go:Diff", "sdk/go/common/resource/properties_diff.go:ValueDiff", "sdk/go/common/resource/properties_diff.go:ObjectDiff", "sdk/go/common/resource/properties_diff.go:ArrayDiff"]}
{"id": "C168", "title": "A diff sorts properties rightly", "statement": "A property is among the added ones exactly if it has a value in the new map and none in the old; among the deleted ones exactly if it is the other way round; among the updated ones if both have values and they differ; and among the same ones if they are equal.", "quantifier": "all pairs of property maps, all keys", "why_tests_cant": "the four sets are made by two loops with five cases each", "anchors": ["sdk/go/common/resource/properties_diff.go:PropertyMap.Diff"]}
{"id": "C169", "title": "Ignored keys are not in a diff", "statement": "What is at an ignored key, or below it, is never part of a diff, and a change of ignored keys alone is no change.", "quantifier": "all pairs of property maps, all sets of ignored keys, all depths", "why_tests_cant": "keys are ignored at every depth, by a recursion tests follow for a few levels", "anchors": ["sdk/go/common/resource/properties_diff.go:Diff", "sdk/go/common/resource/properties_diff.go:IgnoreKeyFunc"]}
{"id": "C170", "title": "Detailed diffs name what changed", "statement": "Every entry of a detailed diff made of a diff is the text of a path at which something was added, deleted or updated, as the entry says; and wherever two values differ there is an entry for that place, one above it or one below it.", "quantifier": "all pairs of property maps, all paths", "why_tests_cant": "paths are of any length, and texts of paths have to be read back", "anchors": ["sdk/go/common/resource/plugin/provider.go:NewDetailedDiffFromObjectDiff", "sdk/go/common/resource/plugin/provider.go:valueDiffToDetailedDiff"]}
{"id": "C171", "title": "A provider that cannot tell gets the engine's own answer", "statement": "If a provider answers that it does not know whether there are changes, there are some exactly if the new inputs, with ignored properties as they were, are not equal to the old inputs; the changed keys are those of the properties that changed; and nothing that is ignored is among the changes. Any other answer is kept.", "quantifier": "all answers of providers, all old and new inputs, all lists of ignored paths", "why_tests_cant": "it is about all inputs and paths", "anchors": ["pkg/resource/deploy/step_generator.go:diffResource", "pkg/resource/deploy/step_generator.go:processIgnoreChanges", "sdk/go/common/resource/properties_diff.go:ChangedKeys", "sdk/go/common/resource/properties_diff.go:AnyChanges"]}
{"id": "C172", "title": "An update keeps to its plan", "statement": "An update with a plan that is let through does to each resource, one operation after the other, no more than what was planned for it: what was planned, or nothing in place of a creation, an update or a replacement, or an update in place of a replacement. A resource there is no plan for is left as it is. All that was planned is done, but for deletions of what is not in the checkpoint.", "quantifier": "all plans, all sequences of operations of an update", "why_tests_cant": "plans and updates can be of any size and in any order", "anchors": ["pkg/resource/deploy/step_generator.go (GenerateSteps, GenerateDeletes)", "pkg/resource/deploy/step.go (ConstrainedTo)", "pkg/resource/deploy/deployment_executor.go (Execute)"]}
{"id": "C173", "title": "A plan lets through what its inputs come to", "statement": "The plan a preview makes of the inputs it sees for a resource allows every set of inputs these can come to in the update: each unknown may turn into any value, or into no value, and nothing is then reported as a violation.", "quantifier": "all old inputs, all inputs seen in a preview with unknowns anywhere, everything they resolve to", "why_tests_cant": "unknowns may be nested anywhere and resolve to anything", "anchors": ["pkg/resource/deploy/plan.go (NewPlanDiff, checkDiff)", "sdk/go/common/resource/properties_diff.go (DiffIncludeUnknowns, DeepEqualsIncludeUnknowns)"]}
{"id": "C174", "title": "Inputs that are let through are those of the plan", "statement": "If the inputs of a resource pass the check against its plan, every property planned to be added or updated has the planned value, where unknowns of the plan stand for any value or none; a property the plan says nothing of is what it was; and a property planned to be deleted is not there.", "quantifier": "all old and new inputs, all plans", "why_tests_cant": "it is about all inputs and plans, nested to any depth", "anchors": ["pkg/resource/deploy/plan.go (checkDiff)", "sdk/go/common/resource/properties_diff.go (DiffIncludeUnknowns)"]}
{"id": "C175", "title": "Registrations that are let through have the options of the plan", "statement": "If a registration passes the check against its plan, its kind, provider, parent, protection, deleteBeforeReplace, import id, timeouts, ignoreChanges, secret outputs, aliases and dependencies are those of the plan; where the plan was to delete the resource, none passes; a registration there is no plan for passes only if it changes nothing of the old state. The registration a plan was made of passes.", "quantifier": "all plans, all registrations, all inputs", "why_tests_cant": "it is about all options, inputs and plans", "anchors": ["pkg/resource/deploy/plan.go (checkGoal, checkMissingPlan, NewGoalPlan)", "pkg/resource/deploy/providers/reference.go (ParseReference)"]}
{"id": "C176", "title": "A preview shows what the update does", "statement": "If an update goes through, the preview of the same program on the same checkpoint, with the same answers of providers and policies, goes through and shows the same steps in the same order.", "quantifier": "all checkpoints, programs, options, targets and answers of providers", "why_tests_cant": "programs and checkpoints can be of any size", "anchors": ["pkg/resource/deploy/step_generator.go (GenerateSteps, generateSteps, generateStepsFromDiff, determineAllowedResourcesToDeleteFromTargets)"]}
{"id": "C177", "title": "The plan of an update lets the update through", "statement": "The plan made of a preview lets the update of the same program on the same checkpoint, with the same answers, through: no step violates it, and nothing of it is left undone.", "quantifier": "all checkpoints, programs, options and answers of providers", "why_tests_cant": "programs and checkpoints can be of any size", "anchors": ["pkg/resource/deploy/step_generator.go (GenerateSteps, GenerateDeletes)", "pkg/resource/deploy/deployment_executor.go (Execute)"]}
{"id": "C178", "title": "Property values survive the state file", "statement": "A property value written to a state file and read back, with secrets encrypted or shown, is the same value; of unknown values only that they are unknown is kept.", "quantifier": "all property values of any size and nesting, all encrypters whose ciphertexts the decrypter opens, secrets shown or not", "why_tests_cant": "values nest without bound, and what they contain can look like the markers the file format uses", "anchors": ["pkg/resource/stack/deployment.go (SerializePropertyValue, DeserializePropertyValue)"]}
{"id": "C179", "title": "State files tell secrets only as ciphertexts", "statement": "A state file written without showing secrets contains of secret values only what the encrypter gave for them; each outermost secret is encrypted exactly once, in order; everything else does not depend on what is in the secrets.", "quantifier": "all property values, all encrypters, all pairs of values that differ only inside secrets", "why_tests_cant": "a leak is a relation between two runs, and secrets can be anywhere in a value", "anchors": ["pkg/resource/stack/deployment.go (SerializePropertyValue)"]}
{"id": "C180", "title": "Decrypting everything at once changes nothing", "statement": "A state file is read with the same result whether its ciphertexts are decrypted together beforehand or one by one; for a file that was written by the engine no further decryption is needed.", "quantifier": "all state files, all decrypters, all sets of ciphertexts decrypted beforehand", "why_tests_cant": "ciphertexts can be anywhere in a file of any size", "anchors": ["pkg/resource/stack/deployment.go (collectCiphertexts, DeserializeDeploymentV3)", "pkg/resource/stack/secrets.go (mapDecrypter)"]}
{"id": "C181", "title": "Unchanged secrets keep their ciphertexts", "statement": "With the caching secrets manager, a secret that has not changed between two writes of the state keeps its ciphertext, so that writing the same state again gives the same file and encrypts nothing; and every ciphertext, cached or not, decrypts to the secret it stands for.", "quantifier": "all sequences of secrets written, all encrypters, all addresses of secrets", "why_tests_cant": "the cache depends on the whole history of writes", "anchors": ["pkg/resource/stack/secrets.go (cachingCrypter, cachingSecretsManager)"]}
{"id": "C182", "title": "The state of a stack survives the state file", "statement": "Writing a snapshot, resources and pending operations, with a secrets manager and reading the file back finds that manager and the same resources and operations, field by field, but for what is unknown in properties; without a manager no secret is ever written.", "quantifier": "all snapshots of any number of resources and operations, all secrets managers, secrets shown or not", "why_tests_cant": "every field of every resource with every property value matters, as does the order of encryption", "anchors": ["pkg/resource/stack/deployment.go (SerializeDeployment, DeserializeDeploymentV3, SerializeResource, DeserializeResource)"]}
{"id": "C183", "title": "Old and foreign state files", "statement": "A state file of an old version is read with all fields of all its resources, each input depending on all dependencies of its resource; a file of an unknown version is refused; and whatever a file says, a resource that is read from it has a URN and a type, and an id only if it is custom.", "quantifier": "all files of all versions", "why_tests_cant": "files are edited by hand and come from any earlier version", "anchors": ["pkg/resource/stack/deployment.go (DeserializeUntypedDeployment, DeserializeResource)", "sdk/go/common/apitype/migrate/resource.go (UpToResourceV2, UpToResourceV3)", "sdk/go/common/apitype/migrate/deployment.go (UpToDeploymentV2, UpToDeploymentV3)"]}
{"id": "C184", "title": "Configuration reads back as it was set", "statement": "If setting a text or a secret for a key, with or without a path, succeeds, then getting that key gives that secret, or that text (a whole number may lose a needless sign); an object set there is read as the same JSON.", "quantifier": "all configurations, keys, paths of any length, values and JSON texts", "why_tests_cant": "A test sets a few paths in a few shapes of object; the claim is for all nestings of maps and lists, all paths and all values.", "anchors": ["sdk/go/common/resource/config/map.go: Map.Set", "sdk/go/common/resource/config/map.go: Map.Get", "sdk/go/common/resource/config/map.go: adjustObjectValue", "sdk/go/common/resource/property_path.go: ParsePropertyPath"]}
{"id": "C185", "title": "Setting one key changes no other", "statement": "Setting a key leaves what is got for every key that is neither of what was set, nor of what contains it, nor of a part of it; and what contains it reads as an object, never as a secret.", "quantifier": "all configurations, pairs of keys and paths, values", "why_tests_cant": "A test compares a handful of other keys after a set; the claim is for all other paths of all configurations.", "anchors": ["sdk/go/common/resource/config/map.go: Map.Set", "sdk/go/common/resource/config/map.go: setValue", "sdk/go/common/resource/config/map.go: getValue", "sdk/go/common/resource/config/value.go: isSecureValue"]}
{"id": "C186", "title": "Removing a key removes it and nothing else", "statement": "After removing a path that ends in a name, nothing is found there and everything elsewhere is as it was; after removing an element of a list the elements after it move up by one and everything else is as it was; removing what is not there changes nothing.", "quantifier": "all configurations, keys, paths and indices", "why_tests_cant": "A test removes a few entries; the claim is for all paths at all depths, and for all that is not removed.", "anchors": ["sdk/go/common/resource/config/map.go: Map.Remove", "sdk/go/common/resource/config/map.go: getValueForPath"]}
{"id": "C187", "title": "Saved configuration is read as it was written", "statement": "A key is read as it was written exactly if its name has no colon, the old form of a key is read as the new; a value is read as it was written, with its secrets known as such; and so is a whole configuration.", "quantifier": "all keys, values and configurations", "why_tests_cant": "A test writes and reads samples; the claim is for all texts of keys and all nestings of values.", "anchors": ["sdk/go/common/resource/config/key.go: ParseKey", "sdk/go/common/resource/config/key.go: Key.String", "sdk/go/common/resource/config/value.go: Value.MarshalJSON", "sdk/go/common/resource/config/value.go: Value.UnmarshalJSON", "sdk/go/common/resource/config/map.go: Map.MarshalJSON", "sdk/go/common/resource/config/map.go: Map.UnmarshalJSON"]}
{"id": "C188", "title": "Secrets in configuration are decrypted and copied wherever they are", "statement": "Decrypting a value puts the text of each secret, at whatever depth, in its place and keeps the rest; a configuration copied to another key reads there as before and keeps what is secret; one without secrets needs no key.", "quantifier": "all values and configurations, decrypters, and encrypters whose texts the new decrypter opens", "why_tests_cant": "A test decrypts a few nested objects; the claim is for all depths and all crypters, stateful ones included.", "anchors": ["sdk/go/common/resource/config/value.go: decryptObject", "sdk/go/common/resource/config/value.go: reencryptObject", "sdk/go/common/resource/config/value.go: Value.Copy", "sdk/go/common/resource/config/value.go: Value.Value", "sdk/go/common/resource/config/map.go: Map.Copy", "sdk/go/common/resource/config/map.go: Map.Decrypt"]}
{"id": "C189", "title": "Commands on a stack of a file backend exclude each other", "statement": "Of commands that change a stack of a file backend (create, remove, rename, update, import), never two run at the same time: what they leave in the bucket is what they would leave one after the other, each of them to its end or to where its process crashed; while the lock of a crashed process is there no later one gets to run.", "quantifier": "every number of processes, every interleaving of their calls, every result of a listing that runs while locks come and go, every crash and every failing call", "why_tests_cant": "the interleavings of two processes, let alone more, and the results that listings may have meanwhile cannot be enumerated; the two checks around the write matter only in some of them", "anchors": ["pkg/backend/filestate/lock.go:checkForLock", "pkg/backend/filestate/lock.go:Lock", "pkg/backend/filestate/lock.go:Unlock", "pkg/backend/filestate/backend.go:CancelCurrentUpdate"]}
{"id": "C190", "title": "Saving a stack replaces its state at once or not at all", "statement": "Wherever saving a stack stops, and whichever calls to the bucket fail, the state file of the stack has the state from before or the new one; when saving reports success it has the new one, which is then what is read; files of other stacks and the history are not changed; if no call fails the state from before is in the backup.", "quantifier": "every state, every bucket, every point at which saving may crash, every call that fails with or without its effect", "why_tests_cant": "tests run to the end with calls that succeed; the property is about every point in between", "anchors": ["pkg/backend/filestate/state.go:saveStack", "pkg/backend/filestate/state.go:backupTarget", "pkg/backend/filestate/state.go:getStack", "pkg/backend/filestate/state.go:stackPath"]}
{"id": "C191", "title": "Creating a stack does not touch one that is there", "statement": "Creating a stack that exists changes nothing and says that it exists; creating one that does not exist makes one that was never updated; files of other stacks are not changed.", "quantifier": "every bucket, every name, every point at which it may stop, every call that fails", "why_tests_cant": "which buckets and which failing calls matter is not known in advance: two findings are about those", "anchors": ["pkg/backend/filestate/backend.go:CreateStack"]}
{"id": "C192", "title": "A stack with resources is removed only if that is forced", "statement": "Removing a stack with resources without force changes nothing wherever it stops; otherwise the state file and the history are gone afterwards, the last state is in the backup, and files of other stacks are as they were.", "quantifier": "every bucket, every state, every point at which it may stop, every call that fails", "why_tests_cant": "a test looks at what is left in one bucket after one run", "anchors": ["pkg/backend/filestate/backend.go:RemoveStack", "pkg/backend/filestate/state.go:removeStack", "pkg/backend/filestate/bucket.go:removeAllByPrefix"]}
{"id": "C193", "title": "Renaming a stack loses neither it nor its history", "statement": "Wherever renaming a stack stops, and whichever calls fail, the stack is there under its old name as it was or under the new name with the new state, and every file of its history is under one of the names; a stack that has the new name is not overwritten; after success everything is under the new name only.", "quantifier": "every bucket, every pair of names, every point at which it may stop, every call that fails", "why_tests_cant": "the order of the copies and deletions matters only at the points in between, at which tests do not stop", "anchors": ["pkg/backend/filestate/backend.go:RenameStack", "pkg/backend/filestate/state.go:renameHistory"]}
{"id": "C194", "title": "The state file follows what the engine saved", "statement": "Wherever an update stops, the state file of the stack has what it had before or a state that the engine saved, and after the engine was told that a state is saved, that one or a later one; when the update reports success its entry in the history has the state that the stack has. With the lock this holds for any number of updates at the same time.", "quantifier": "every engine, that is every sequence of states depending on which saves succeeded, every crash, every failing call, every schedule", "why_tests_cant": "the engines and the points at which they may be interrupted are unbounded", "anchors": ["pkg/backend/filestate/backend.go:apply", "pkg/backend/filestate/state.go:addToHistory", "pkg/backend/filestate/state.go:backupStack", "pkg/backend/filestate/snapshot.go"]}
{"id": "C195", "title": "Pages of the history make up the history", "statement": "The pages of the history of a stack, one after the other, have every entry once, newest first; a page has at most as many entries as asked for; numbers below one are the first page, and without a page size there is one page with all.", "quantifier": "every history, every page size, every page number", "why_tests_cant": "boundaries of pages depend on the length of the history and the page size, of which tests take a few", "anchors": ["pkg/backend/filestate/state.go:getHistory"]}
{"id": "C196", "title": "Files of different stacks have different names", "statement": "Different files of stacks, of the same or of different stacks, have different names; the stacks that are listed are those with a state file; the directories with the history and the locks of a stack have only those of it; renaming changes the name of a file of the history to that of the same file of the new stack.", "quantifier": "every pair of valid stack names, which may have dots and dashes, every time, every set of files", "why_tests_cant": "names with dots and dashes could make the file of one stack look like the backup or the history of another one; the pairs of names are unbounded", "anchors": ["pkg/backend/filestate/state.go:stackPath", "pkg/backend/filestate/state.go:historyDirectory", "pkg/backend/filestate/state.go:renameHistory", "pkg/backend/filestate/backend.go:getLocalStacks", "pkg/backend/filestate/lock.go:lockPath"]}
{"id": "C197", "title": "A plugin is installed as a whole or not at all", "statement": "However many processes install a plugin at the same time, and whatever fails or crashes: no two of them write to its directory at the same time, what is found as installed has all files of the plugin, an installation that reported success stays, and what a crash left does not keep a later installation from succeeding.", "quantifier": "every number of processes, every content of a plugin, every interleaving of their steps, every point at which a call fails or a process crashes", "why_tests_cant": "partial directories show up only for certain crash points and interleavings of several processes", "anchors": ["sdk/go/common/workspace/plugins.go:PluginSpec.InstallWithContext", "sdk/go/common/workspace/plugins.go:PluginSpec.installLock", "sdk/go/common/workspace/plugins.go:HasPlugin", "sdk/go/common/workspace/plugins.go:PluginInfo.Delete", "sdk/go/common/util/fsutil/lock.go:FileMutex"]}
{"id": "C198", "title": "The newest installed plugin that fits is chosen", "statement": "A plugin is found if and only if an installed one has the kind, name and a version that is asked for; it is the one with the latest version, and one without a version only if no version fits; the choice does not depend on the order in which plugins are listed.", "quantifier": "every list of plugins in every order, every kind, name and range of versions", "why_tests_cant": "the order of versions with pre-releases and ties, and unstable sorting, make for unboundedly many cases", "anchors": ["sdk/go/common/workspace/plugins.go:SelectCompatiblePlugin", "sdk/go/common/workspace/plugins.go:getPluginInfoAndPath", "sdk/go/common/workspace/plugins.go:SortedPluginInfo.Less"]}
{"id": "C199", "title": "Default plugins do not depend on the order in which plugins are found", "statement": "Of the plugins that a program needs, those without version and place to download are dropped if there is another one of the name; the default plugin of a package is the resource plugin with the greatest version; neither depends on the order in which a map is walked or on how ties are sorted, and no assertion fails.", "quantifier": "every set of plugins, every order of walking it, every result of sorting", "why_tests_cant": "the order in which Go walks a map is random: a test sees few of the orders", "anchors": ["pkg/engine/plugins.go:pluginSet.Deduplicate", "pkg/engine/plugins.go:computeDefaultProviderPlugins", "sdk/go/common/workspace/plugins.go:SortedPluginSpec.Less"]}
{"id": "C200", "title": "States from before there were providers are migrated without loss", "statement": "Before a deployment starts, every custom resource of the last one that has no provider gets the default provider of its package: there is exactly one new provider for each such package, with the inputs of the configuration and manifest, placed before all resources; nothing else of any resource changes except that providers without outputs get their inputs; what was in order still is, and migrating twice changes nothing.", "quantifier": "every list of resources, configuration and manifest", "why_tests_cant": "the states that are migrated are those that were ever written by older versions", "anchors": ["pkg/resource/deploy/deployment.go:addDefaultProviders", "pkg/resource/deploy/deployment.go:migrateProviders", "pkg/resource/deploy/deployment.go:buildResourceMap"]}
{"id": "C201", "title": "Every package, version and URL has its own default provider, made once", "statement": "Requests for the default provider of the same package, version and URL get the same reference, and once one is answered no further provider is registered; different ones get different providers; the registration has the version and URL of the request, else of the default plugin, and a legal name; packages for which default providers are disabled never get one but a reference that names the package.", "quantifier": "every sequence of requests, every setting of disable-default-providers, every behaviour of the engine", "why_tests_cant": "the requests come in any order with any versions and URLs, and the engine may be cancelled at any of them", "anchors": ["pkg/resource/deploy/source_eval.go:defaultProviders.handleRequest", "pkg/resource/deploy/source_eval.go:defaultProviders.newRegisterDefaultProviderEvent", "pkg/resource/deploy/source_eval.go:defaultProviders.shouldDenyRequest", "pkg/resource/deploy/source_eval.go:parseProviderRequest", "pkg/resource/deploy/providers/provider.go:ProviderRequest.Name", "pkg/resource/deploy/providers/provider.go:ProviderRequest.String", "sdk/go/common/tokens/names.go:IntoQName"]}
{"id": "C202", "title": "Every provider reference stands for its own plugin", "statement": "During a deployment a provider reference stands for the plugin of its package and version that was configured with the inputs of that provider last, as if every reference had a plugin of its own: checking, creating, updating, replacing or deleting one provider does not change what any other reference stands for, and none that is in use is closed.", "quantifier": "every sequence of calls of a deployment, every set of old providers and of former names", "why_tests_cant": "the plugins are shared between references by steps in any order", "anchors": ["pkg/resource/deploy/providers/registry.go:Registry", "pkg/resource/deploy/providers/registry.go:NewRegistry"]}
{"id": "C203", "title": "A plan that is saved and read again allows what the plan allowed", "statement": "The file that a preview saves its plan in and an update reads it from keeps the plan: reading it gives the same resources with the same steps, seeds and goals; every registration, and every set of outputs, is allowed or refused for the same reason with the plan that was read as with the plan that was made. If secrets are not shown, the file has nothing of them but what the encrypter gives.", "quantifier": "all plans, with any properties nested to any depth, any options and any number of resources in any order; all encrypters whose ciphertexts can be decrypted; all registrations and outputs that are checked against the plan", "why_tests_cant": "The plan is checked in another process, against values that the preview did not see; a field that is lost on the way to the file makes the check lax, which no update that keeps to its plan shows.", "anchors": ["pkg/resource/stack/plan.go:SerializePlanDiff", "pkg/resource/stack/plan.go:DeserializePlanDiff", "pkg/resource/stack/plan.go:SerializeResourcePlan", "pkg/resource/stack/plan.go:DeserializeResourcePlan", "pkg/resource/stack/plan.go:SerializePlan", "pkg/resource/stack/plan.go:DeserializePlan", "pkg/cmd/pulumi/util.go:writePlan", "pkg/resource/deploy/plan.go:checkGoal"]}
{"id": "C204", "title": "Importing resources keeps what there is and adds what was asked for", "statement": "However an import ends (well, with an error, cancelled at any point, with reads that end in any order), the state that is saved has every resource that was there, as it was; everything else in it is the stack, if there was none, a default provider that an import needs and that was not there, or the resource of one of the imports, as its provider has read it, with the parent, provider and protection that were asked for and the inputs that were named. The saved state is intact if the old one was. If the import ends well, the resource of every import is in the state. A provider that has been made is saved, whatever fails after it.", "quantifier": "all states, all lists of imports, all plugins (what Check, Create and Read give), all cancellations and orders in which steps end", "why_tests_cant": "An import writes a state that has not been made by any program; what is lost or put in the wrong place shows only in the next update, and depends on which of the reads fail and in which order they end.", "anchors": ["pkg/resource/deploy/import.go:importResources", "pkg/resource/deploy/import.go:registerExistingResources", "pkg/resource/deploy/import.go:getOrCreateStackResource", "pkg/resource/deploy/import.go:registerProviders", "pkg/resource/deploy/step.go:ImportStep.Apply"]}
{"id": "C205", "title": "An encrypted value decrypts to what was encrypted, and with no other key", "statement": "Decrypting with a key what was encrypted with it gives what was encrypted, whatever the text and the nonce. With another key it gives nothing, if the cipher is authentic. Only texts of the form that encryption writes (version, nonce and ciphertext in base 64, separated by colons) are decrypted.", "quantifier": "all texts, keys and nonces of the right length; all ciphers that open what they have closed", "why_tests_cant": "The text goes through base 64 and is split at colons again; a wrong boundary for one of the three lengths modulo three, or a digit that reads as another, shows only for some values, and then the secret is lost.", "anchors": ["sdk/go/common/resource/config/crypt.go:symmetricCrypter.EncryptValue", "sdk/go/common/resource/config/crypt.go:symmetricCrypter.DecryptValue", "sdk/go/common/resource/config/crypt.go:decryptAES256GCM"]}
{"id": "C206", "title": "A passphrase opens its stack and no other does", "statement": "The state that is made with a passphrase opens with it, and with another passphrase it does not, unless it has been opened before in the same process. After any calls in any order, every manager that is given for a state has that state, and either the key that the state was made with, so that all of them read each other's secrets, or none; one without a key encrypts and decrypts nothing. The passphrase is from the variable, else from the file, else from the terminal, where wrong ones are passed over until a right one is typed; a new one is typed twice, and one that replaces another is never taken from the environment.", "quantifier": "all passphrases, salts and nonces; all histories of calls with any environments and lines typed; all ciphers that open what they have closed and nothing else", "why_tests_cant": "Managers are cached for the life of the process, by state; which calls have gone before decides what a call gives. Tests clear the cache between calls.", "anchors": ["pkg/secrets/passphrase/manager.go:symmetricCrypterFromPhraseAndState", "pkg/secrets/passphrase/manager.go:indexN", "pkg/secrets/passphrase/manager.go:NewPassphaseSecretsManager", "pkg/secrets/passphrase/manager.go:NewPromptingPassphraseSecretsManager", "pkg/secrets/passphrase/manager.go:NewPromptingPassphaseSecretsManagerFromState", "pkg/secrets/passphrase/manager.go:PromptForNewPassphrase", "pkg/secrets/passphrase/manager.go:readPassphrase"]}
{"id": "C207", "title": "Changing the passphrase loses no secret", "statement": "After the passphrase of a stack has been changed, the new one reads from the configuration and the checkpoint what the old one read, and what was a secret is one. If the command stops at any point, every secret can still be read with the old or with the new passphrase.", "quantifier": "all configurations and checkpoints, all points at which the command can stop or fail", "why_tests_cant": "The command writes three times; what is lost if it stops between two writes depends on where, and no test stops it there.", "anchors": ["pkg/cmd/pulumi/stack_change_secrets_provider.go:migrateOldConfigAndCheckpointToNewSecretsProvider", "pkg/backend/filestate/crypto.go:NewPassphraseSecretsManager", "pkg/cmd/pulumi/util.go:createSecretsManager"]}
{"id": "C208", "title": "The lease of an update is kept alive", "statement": "While an update runs, every request for the update's token is answered, once and in order. A token that is given out is the newest one that the service has granted, and it is either taken to be good for at least another half of its duration or was granted in answer to this very request; if the service's answers take no longer than half the duration, its lease, counted from when the service granted it, has not run out. The service is asked to renew only when half of the time has gone, and always for the newest token. After a renewal has failed, every request is refused with that error and the service is not asked again.", "quantifier": "all sequences of ticks and requests at any times, all answers of the service, all durations", "why_tests_cant": "Whether a stale token is ever handed out depends on how ticks, requests and slow answers interleave; tests run a few timings.", "anchors": ["pkg/backend/httpstate/token_source.go:tokenSource.handleRequests", "pkg/backend/httpstate/token_source.go:tokenSource.GetToken", "pkg/backend/httpstate/state.go:newUpdate"]}
{"id": "C209", "title": "The events of an update are recorded once, in order", "statement": "When recording is reported as done, the service has been asked to record every event before the CancelEvent (debug ones only if asked for), each exactly once and with its place in the stream as its sequence number, however the ticker fires and the requests interleave. At no time do two events have the same number. A request has between one and fifty events, and there are no more requests at a time than goroutines. As long as the stream has a CancelEvent, recording never gets stuck and ends after a bounded number of steps.", "quantifier": "all streams of events, all firings of the ticker, all schedules of the loop and of any number of goroutines, all orders in which requests return", "why_tests_cant": "The batches depend on when the ticker fires and on which goroutine is free; a lost last batch or a repeated number shows up under few schedules.", "anchors": ["pkg/backend/httpstate/state.go:persistEngineEvents", "pkg/backend/httpstate/state.go:cloudUpdate.recordEngineEvents", "pkg/backend/httpstate/state.go:isDebugDiagEvent"]}
{"id": "C210", "title": "Secrets of the configuration are left out of texts", "statement": "After filtering, no secret of the configuration is left in a text that is logged or sent as an event, whatever the text is and whatever other secrets there are. Nothing but secrets is taken out, and a text without secrets is left as it is.", "quantifier": "all texts, all sets of secrets, any number of filters added in any order", "why_tests_cant": "Whether a part of a secret is left depends on how secrets overlap in the text and with each other, and on the order of a Go map.", "anchors": ["sdk/go/common/util/logging/log.go:CreateFilter", "sdk/go/common/util/logging/log.go:FilterString", "sdk/go/common/util/logging/log.go:AddGlobalFilter", "pkg/engine/events.go:makeEventEmitter"]}
{"id": "C211", "title": "Events tell nothing of secrets", "statement": "Two states of a resource that differ only within their secret values give the same event, in the terminal and for the service. Secrets of the configuration are in no text of an event. Otherwise an event has the same properties with the same kinds of values as the resource, and what is secret is marked as secret.", "quantifier": "all inputs and outputs of resources, of any depth, with assets, archives, references and outputs, and all secrets", "why_tests_cant": "Non-interference is about all pairs of values; a leak may be in any kind of value at any depth.", "anchors": ["pkg/engine/events.go:filterPropertyValue", "pkg/engine/events.go:filterAsset", "pkg/engine/events.go:filterArchive", "pkg/backend/display/events.go:convertStepEventStateMetadata"]}
{"id": "C212", "title": "Events come in order and none is lost", "statement": "One who receives the events of an update gets them in the order in which they were sent, none twice and none left out. Those who send never wait for the receiver. When the emitter has been closed, all events that were sent before have been received, and closing returns if the receiver goes on receiving.", "quantifier": "all streams of events, all schedules of senders, queue and receiver, all points at which the emitter is closed", "why_tests_cant": "A lost or swapped event needs a certain interleaving of the senders, the receiver and the close.", "anchors": ["pkg/engine/events.go:queueEvents", "pkg/engine/events.go:eventEmitter.Close", "pkg/engine/events.go:trySendEvent"]}
{"id": "C213", "title": "Nothing is changed without consent", "statement": "If a command changes resources, it was given --yes or --skip-preview, or confirmations are skipped by the environment, or its preview succeeded and the question was answered with yes. Without a terminal and without these flags the command is refused. The engine is run for real at most once, after a preview of the same plan; a preview changes nothing. The plan that was given is what the run is held to, as it was before the preview; without one it is that of the preview, if plans are enabled. Success is reported only if the last run succeeded.", "quantifier": "all flags, all sequences of replies, all behaviours of the engine, all plans", "why_tests_cant": "The replies are an unbounded sequence, and the plan is changed by the preview; which of the plans is used shows up only with programs that do not do the same twice.", "anchors": ["pkg/backend/apply.go:PreviewThenPromptThenExecute", "pkg/backend/apply.go:PreviewThenPrompt", "pkg/backend/apply.go:confirmBeforeUpdating", "pkg/cmd/pulumi/util.go:updateFlagsToOptions", "pkg/cmd/pulumi/up.go:newUpCmd"]}
{"id": "C214", "title": "A policy runs at the level and with the properties its configuration says", "statement": "The level of a policy is the first valid one of: the configuration's for the policy, the configuration's for all, the pack's own for the policy, the pack's own for all, the policy's default. A property has the configuration's value, else the pack's own, else the schema's default. Nothing configured for another policy matters, nor the order of the maps. A configuration is used exactly when every policy's schema accepts the resulting properties, and is otherwise refused with the complaints of all policies.", "quantifier": "all packs, schemas, validators, own configurations and user configurations", "why_tests_cant": "The result depends on every combination of five sources and on Go's random map order", "anchors": ["pkg/resource/analyzer/config.go:ReconcilePolicyPackConfig", "pkg/resource/analyzer/config.go:applyConfig", "pkg/resource/analyzer/config.go:createConfigWithDefaults", "pkg/resource/analyzer/config.go:validatePolicyPackConfig"]}
{"id": "C215", "title": "The configuration of policies is read as written, and an update begins only with packs that are configured", "statement": "A configuration file or the service's configuration is accepted exactly when each entry is well formed; what is read is its level and its other properties. An update goes on only when every pack was started and every configurable pack was configured with the configuration put together for it, in which all levels are valid; a bad configuration of any pack stops it; what a user configures is never silently dropped.", "quantifier": "all packs, files, answers of plugins, validators", "why_tests_cant": "A pack that is silently unconfigured is seen in no test of another pack's configuration", "anchors": ["pkg/resource/analyzer/config.go:parsePolicyPackConfig", "pkg/resource/analyzer/config.go:ParsePolicyPackConfigFromAPI", "pkg/engine/update.go:installAndLoadPolicyPlugins", "sdk/go/common/resource/plugin/analyzer_plugin.go:Configure"]}
{"id": "C216", "title": "Mandatory policies stop an update, others only report", "statement": "During an update no step is made for a resource that violates a mandatory policy nor for any after it; a preview shows all resources and fails as the update would; a run succeeds exactly when no mandatory policy is violated by a resource or by the stack (and nothing else failed); violations of other policies change nothing; every violation is reported with its resource; a stack that violates a mandatory policy is not made.", "quantifier": "all sequences of resources, analyzers, answers, previews and updates", "why_tests_cant": "Quantifies over all programs and all answers of all analyzers", "anchors": ["pkg/resource/deploy/step_generator.go:generateStepsFromEvent", "pkg/resource/deploy/step_generator.go:AnalyzeResources", "pkg/resource/deploy/deployment_executor.go:Execute"]}
{"id": "C217", "title": "A request to the service is repeated only while it may be, and its outcome is that of the last attempt", "statement": "A request that may be repeated is sent again while there is no response or the server fails (5xx), at most the allowed number of times (four for the service); each attempt sends the whole body; the result is the last attempt's; responses not given back are closed; the waits grow and stay below the longest, the first being the configured delay; other requests are sent exactly once; a call succeeds exactly when the last response is no 4xx or 5xx, and otherwise reports the response's status.", "quantifier": "all requests, all sequences of responses and failures of the network, all delays and limits", "why_tests_cant": "Quantifies over all behaviours of a server and a network", "anchors": ["sdk/go/common/util/retry/until.go:Until", "sdk/go/common/util/httputil/http.go:doWithRetry", "pkg/backend/httpstate/client/api.go:Do", "pkg/backend/httpstate/client/api.go:pulumiAPICall"]}
{"id": "C218", "title": "Steps of a chain run in order, once each, on a bounded number of workers, and all come to an end", "statement": "Steps submitted together as a chain begin one after the other in their order, each only after all before it succeeded, and none twice. With --parallel n no more than max(n,1) steps are under way at once. A chain is reported complete only when all its steps were carried out, when its own next step failed (and then the update reports an error), or when the update was cancelled. An update that ends without error and without cancellation has carried out every step submitted; it reports an error exactly if a step failed. The workers neither hang nor go on for ever.", "quantifier": "all numbers and lengths of chains, all numbers of workers, all interleavings of workers, submission, failures and cancellation", "why_tests_cant": "the interleavings of several workers, submitters and a cancellation cannot be enumerated by tests, and absence of hanging is not a test outcome", "anchors": ["pkg/resource/deploy/step_executor.go:stepExecutor.ExecuteSerial", "pkg/resource/deploy/step_executor.go:stepExecutor.executeChain", "pkg/resource/deploy/step_executor.go:stepExecutor.worker", "pkg/resource/deploy/step_executor.go:stepExecutor.WaitForCompletion", "pkg/resource/deploy/deployment.go:Options.DegreeOfParallelism"]}
{"id": "C219", "title": "A failure or a cancellation stops what was not begun", "statement": "After an update is cancelled, by its user or because a step failed where errors do not let it continue, no further step begins; and where one set of steps is submitted only after another was awaited, no step of the second begins unless all of the first were carried out.", "quantifier": "all histories of the executor, all moments of failure or cancellation", "why_tests_cant": "the moment between the test for cancellation and the beginning of a step cannot be hit by tests on purpose", "anchors": ["pkg/resource/deploy/step_executor.go:stepExecutor.executeChain", "pkg/resource/deploy/step_executor.go:stepExecutor.cancelDueToError", "pkg/resource/deploy/step_executor.go:completionToken.Wait", "pkg/resource/deploy/deployment_executor.go:deploymentExecutor.performDeletes"]}
{"id": "C220", "title": "What a step asks of its provider", "statement": "A preview never asks a provider to change anything. A provider is asked to delete a resource only outside previews and only if the resource is custom, not external, not to be retained, and not protected (or replaced); it is then asked with the id and outputs of the state. A protected resource makes a deletion fail without asking. A step asks at most once, and components ask nothing.", "quantifier": "all steps, states, answers of providers", "why_tests_cant": "all combinations of flags, kinds of steps and answers", "anchors": ["pkg/resource/deploy/step.go:DeleteStep.Apply", "pkg/resource/deploy/step.go:CreateStep.Apply", "pkg/resource/deploy/step.go:UpdateStep.Apply", "pkg/resource/deploy/step.go:ReadStep.Apply", "pkg/resource/deploy/step.go:RefreshStep.Apply"]}
{"id": "C221", "title": "What a step leaves in the state", "statement": "A resource that was created has the id and outputs its provider gave, with the reasons noted if it failed in part; a replaced resource is marked for deletion exactly if its replacement exists; an update keeps the id; a refresh changes only id, inputs, outputs and initialisation errors and drops a resource exactly if its provider says without failing that there is nothing; an update that failed in part is saved with the old inputs and the new outputs.", "quantifier": "all states, steps and answers of providers", "why_tests_cant": "all combinations of answers, failures and states", "anchors": ["pkg/resource/deploy/step.go:CreateStep.Apply", "pkg/resource/deploy/step.go:UpdateStep.Apply", "pkg/resource/deploy/step.go:RefreshStep.Apply", "pkg/resource/deploy/step.go:ReadStep.Apply", "pkg/engine/update.go:updateActions.OnResourceStepPost"]}
{"id": "C222", "title": "A step is written before it is carried out and before the program hears of it, with its secrets", "statement": "The beginning of a step is written to the checkpoint before its provider is asked, and if that fails nobody is asked. The program is told of a resource only after it was written, and is told what was written. The outputs named in additionalSecretOutputs, and no others, are made secret in what is written.", "quantifier": "all steps, answers of providers and failures of writing", "why_tests_cant": "failures at every point, all sets of outputs and names", "anchors": ["pkg/resource/deploy/step_executor.go:stepExecutor.executeStep", "pkg/resource/deploy/step_executor.go:stepExecutor.ExecuteRegisterResourceOutputs", "pkg/engine/update.go:updateActions.OnResourceStepPre", "pkg/engine/update.go:updateActions.OnResourceStepPost"]}
{"id": "C223", "title": "References to other stacks", "statement": "A stack reference registered with the engine is accepted exactly when its only input is a name that is a string or not known yet. Creating, reading or invoking it gives the outputs of the root stack resource of the stack of that name and no others, together with the names of exactly those outputs that contain a secret at any depth, each once and in one order that does not depend on map iteration. It is replaced exactly when its name changes. Asking for the outputs of the resources of a stack covers exactly the resources that do not wait to be deleted, and asking for a resource by URN covers exactly those registered in this deployment. No request a program can make ends the engine's process.", "quantifier": "every backend, every set of inputs and outputs with secrets at any depth, every order of map iteration, every snapshot", "why_tests_cant": "Map iteration order, the nesting of secrets and the contents of the other stack range over unbounded sets; a test sees one order and a few shapes.", "anchors": ["pkg/resource/deploy/builtins.go:builtinProvider.Check", "pkg/resource/deploy/builtins.go:builtinProvider.Diff", "pkg/resource/deploy/builtins.go:builtinProvider.Create", "pkg/resource/deploy/builtins.go:builtinProvider.Read", "pkg/resource/deploy/builtins.go:builtinProvider.Invoke", "pkg/resource/deploy/builtins.go:readStackReference", "pkg/backend/backend.go:backendClient.GetStackOutputs", "pkg/backend/backend.go:backendClient.GetStackResourceOutputs", "pkg/resource/stack/checkpoint.go:GetRootStackResource", "sdk/go/common/resource/properties.go:ContainsSecrets"]}
{"id": "C224", "title": "What is displayed of a provider's detailed diff", "statement": "When an update displays a provider's detailed diff, everything shown comes of an entry of that diff: at the entry's path what the provider said of it, or, where a property on the way exists on one side only, that property as a whole as added or deleted. No entry is lost, and what is shown does not depend on the order in which the entries are gone through.", "quantifier": "every detailed diff, every old and new properties of any depth, every order of map iteration", "why_tests_cant": "The order of map iteration changes from run to run and the paths and values are unbounded; a test sees one order.", "anchors": ["pkg/engine/detailedDiff.go:TranslateDetailedDiff", "pkg/engine/detailedDiff.go:addDiff", "pkg/engine/detailedDiff.go:getProperty"]}
{"id": "C225", "title": "When an update is taken to have succeeded", "statement": "An update or destroy that is more than a refresh is reported as a success exactly when everything it began with succeeded (the refresh, the targets to replace or destroy being there, the start of the program, the deletions left over), every event of the program was handled, the program ended, every deletion that followed was made, every target was found, the plan was fulfilled, no step, step generation or policy failed, and the user did not cancel. A failure is never silent: something is reported, and a failed step or a cancellation is reported as such.", "quantifier": "every order of events, errors and cancellation seen by the engine's main loop, every set of targets, every plan and previous snapshot, every point of cancellation", "why_tests_cant": "Which of the end of the program, the failure of a step and the user's cancellation is seen first depends on timing; a test sees one order and few combinations of targets, plans and failures.", "anchors": ["pkg/resource/deploy/deployment_executor.go:Execute", "pkg/resource/deploy/deployment_executor.go:checkTargets", "pkg/resource/deploy/deployment_executor.go:performDeletes", "pkg/resource/deploy/deployment_executor.go:reportExecResult"]}
{"id": "C226", "title": "Interrupting an update", "statement": "Pressing ^C once asks an update to stop: it starts nothing more, ends only when the deployment has ended, with its result, and every step that completed is in the checkpoint. The update returns before that only after a second ^C, which always makes it return whatever the deployment does. The user is told so, and told that terminating may orphan resources. Without ^C nothing is canceled.", "quantifier": "every interleaving of the user's interrupts with the goroutines that receive them, pass them on, run the deployment and wait for it; any number of interrupts and steps", "why_tests_cant": "Interrupts arrive at any moment between the steps of four goroutines, and select takes either of two ready cases; a test makes one interleaving.", "anchors": ["pkg/cmd/pulumi/util.go:cancellationScope", "pkg/cmd/pulumi/util.go:NewScope", "pkg/util/cancel/context.go:NewContext", "pkg/engine/deployment.go:run", "pkg/engine/update.go:OnResourceStepPost"]}
{"id": "C227", "title": "Names of stacks of the service", "statement": "A stack name given to the CLI with the service backend is read as exactly the owner, project and name it has, the owner left out standing for the default organization or else the user, the project left out for the project at hand; names with more than three parts, or whose last part is not a legal name, are refused. The name shown for a stack, read in the same place, stands for that stack again, so that no two stacks are shown by the same name, and it is the shortest such name.", "quantifier": "every string, every owner, project and name of any length, every default organization, user and project, known or not", "why_tests_cant": "The strings and environments are unbounded, and reading back must hold for every combination of what is elided with what is the default.", "anchors": ["pkg/backend/httpstate/backend.go:parseStackName", "pkg/backend/httpstate/backend.go:ParseStackReference", "pkg/backend/httpstate/stack.go:cloudBackendReference.String", "sdk/go/common/tokens/names.go:IsName"]}
{"id": "C228", "title": "Logs of the resources of a stack", "statement": "The logs of a stack or component are those of its resources put together: in order of time, with everything a resource logged, nothing else and nothing twice, whatever the order in which the resources answer. Where asking a resource fails, the errors are given, beside the logs that were answered.", "quantifier": "every number of resources, every lists of entries with any times and messages, every order in which the resources answer, every failures", "why_tests_cant": "The resources are asked at the same time and answer in any order; a test sees one order of a few entries.", "anchors": ["pkg/operations/resources.go:GetLogs", "pkg/operations/operations.go:LogEntry"]}
