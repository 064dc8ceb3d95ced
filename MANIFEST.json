{
 "claims": [
  {
   "property": "C01",
   "status": "proved",
   "theorems": [
    "Pulumi.Output.apply_update",
    "Pulumi.Output.apply_update_shows"
   ],
   "note": ""
  },
  {
   "property": "C02",
   "status": "proved",
   "theorems": [
    "Pulumi.Output.apply_preview",
    "Pulumi.Output.apply_preview_with_unknowns",
    "Pulumi.Output.known_has_no_unknown",
    "Pulumi.Output.containsUnknowns_iff"
   ],
   "note": ""
  },
  {
   "property": "C03",
   "status": "proved",
   "theorems": [
    "Pulumi.Output.apply_secret",
    "Pulumi.Output.chain_secret"
   ],
   "note": ""
  },
  {
   "property": "C04",
   "status": "proved",
   "theorems": [
    "Pulumi.Output.apply_deps",
    "Pulumi.Output.apply_deps_on_failure"
   ],
   "note": ""
  },
  {
   "property": "C05",
   "status": "proved",
   "theorems": [
    "Pulumi.Output.apply_left_identity",
    "Pulumi.Output.apply_right_identity",
    "Pulumi.Output.apply_associative"
   ],
   "note": "Right identity is for known outputs (an update marks any plain callback result known) and in previews; associativity holds in previews and updates without restriction."
  },
  {
   "property": "C06",
   "status": "proved",
   "theorems": [
    "Pulumi.Output.all_args",
    "Pulumi.Output.all_kwargs",
    "Pulumi.Output.all_mixed"
   ],
   "note": ""
  },
  {
   "property": "C07",
   "status": "partial",
   "theorems": [
    "Pulumi.Output.fromInput_unwraps_partial",
    "Pulumi.Output.fromInput_empty_input"
   ],
   "note": "Fails for an input-class instance with no fields set: proved negation fromInput_empty_input. In a preview an input-class instance with an unknown field collapses to an unknown None."
  },
  {
   "property": "C08",
   "status": "proved",
   "theorems": [
    "Pulumi.Output.secret_spec",
    "Pulumi.Output.unsecret_spec"
   ],
   "note": ""
  },
  {
   "property": "C09",
   "status": "proved",
   "theorems": [
    "Pulumi.Async.schedule_independent",
    "Pulumi.Async.every_schedule_completes",
    "Pulumi.Async.future_write_once"
   ],
   "note": ""
  },
  {
   "property": "C10",
   "status": "proved",
   "theorems": [
    "Pulumi.Output.apply_settles"
   ],
   "note": ""
  },
  {
   "property": "C11",
   "status": "partial",
   "theorems": [
    "Pulumi.Output.join_outputs_partial",
    "Pulumi.Output.join_inputs_partial",
    "Pulumi.Output.join_inputs_witness",
    "Pulumi.Output.join_loses_secret",
    "Pulumi.Output.join_loses_secret_witness"
   ],
   "note": "The code violates secretness when the first input is an Output and the second is not a plain value: negation join_loses_secret. Values, knownness and dependencies proved for all nine kinds of pairs of inputs."
  },
  {
   "property": "C12",
   "status": "proved",
   "theorems": [
    "Pulumi.Graph.contains_unknowns_exact"
   ],
   "note": ""
  },
  {
   "property": "C13",
   "status": "proved",
   "theorems": [
    "Pulumi.Wire.secrets_hidden",
    "Pulumi.Wire.secret_wrapped",
    "Pulumi.Wire.secret_properties_hidden"
   ],
   "note": "Non-interference: changing the contents of secret Outputs changes only wrapped parts"
  },
  {
   "property": "C14",
   "status": "proved",
   "theorems": [
    "Pulumi.Wire.unknown_sent_as_sentinel",
    "Pulumi.Wire.unknown_sent_without_value",
    "Pulumi.Wire.unknown_marker_sent",
    "Pulumi.Wire.unknown_values_hidden",
    "Pulumi.Wire.unknown_values_irrelevant"
   ],
   "note": "Direct form and non-interference form"
  },
  {
   "property": "C15",
   "status": "proved",
   "theorems": [
    "Pulumi.Wire.dependencies_exact",
    "Pulumi.Wire.property_dependencies_exact",
    "Pulumi.Wire.none_property_loses_dependency"
   ],
   "note": "Dependencies are exactly the resources mentioned; a property that serialises to None is dropped with its dependencies (none_property_loses_dependency)"
  },
  {
   "property": "C16",
   "status": "proved",
   "theorems": [
    "Pulumi.Wire.plain_round_trip",
    "Pulumi.Wire.plain_round_trip_exact",
    "Pulumi.Wire.plain_properties_round_trip"
   ],
   "note": ""
  },
  {
   "property": "C17",
   "status": "proved",
   "theorems": [
    "Pulumi.Wire.secrets_bubble",
    "Pulumi.Wire.marked_iff",
    "Pulumi.Wire.erase_then_read",
    "Pulumi.Wire.secret_null_entry_kept",
    "Pulumi.Wire.output_value_keeps_marker"
   ],
   "note": "Witnesses: a secret null keeps a None entry; markers inside output values stay"
  },
  {
   "property": "C18",
   "status": "partial",
   "theorems": [
    "Pulumi.Wire.read_at_path",
    "Pulumi.Wire.sentinel_at_path_partial",
    "Pulumi.Wire.string_at_path",
    "Pulumi.Wire.no_unknowns_in_update",
    "Pulumi.Wire.sentinel_never_visible",
    "Pulumi.Wire.keep_irrelevant_in_preview",
    "Pulumi.Wire.unknown_under_secret_lost",
    "Pulumi.Wire.unknown_asset_path"
   ],
   "note": "Holds at every position except below a secret wrapper when only keep_unknowns asks for unknowns: there the code forgets keep_unknowns (unknown_under_secret_lost); asset fields are not decoded (unknown_asset_path)"
  },
  {
   "property": "C19",
   "status": "proved",
   "theorems": [
    "Pulumi.Wire.object_entries",
    "Pulumi.Wire.no_internal_keys",
    "Pulumi.Wire.no_internal_properties",
    "Pulumi.Wire.keep_internal_top_only"
   ],
   "note": "Internal properties are kept at the top level only when requested (keep_internal_top_only)"
  },
  {
   "property": "C20",
   "status": "proved",
   "theorems": [
    "Pulumi.Wire.serialised_legal",
    "Pulumi.Wire.properties_fail_only_by_value"
   ],
   "note": ""
  },
  {
   "property": "C21",
   "status": "partial",
   "theorems": [
    "Pulumi.Wire.assets_round_trip_partial",
    "Pulumi.Wire.archive_loses_dunder_file"
   ],
   "note": "Fails for archives with entries named like __init__.py (archive_loses_dunder_file)"
  },
  {
   "property": "C22",
   "status": "proved",
   "theorems": [
    "Pulumi.Wire.output_value_round_trip"
   ],
   "note": ""
  },
  {
   "property": "C23",
   "status": "proved",
   "theorems": [
    "Pulumi.Resolve.outputs_resolved_once",
    "Pulumi.Resolve.never_resolved_twice",
    "Pulumi.Resolve.read_resolved_once",
    "Pulumi.Resolve.no_reply_leaves_pending"
   ],
   "note": "register_resource, any outcome and any reply other than None; read and lookup when they succeed. no_reply_leaves_pending records the reply None."
  },
  {
   "property": "C24",
   "status": "proved",
   "theorems": [
    "Pulumi.Resolve.engine_value",
    "Pulumi.Resolve.input_value",
    "Pulumi.Resolve.missing_value",
    "Pulumi.Resolve.own_values",
    "Pulumi.Resolve.null_output_shows_input"
   ],
   "note": "null_output_shows_input: a null output counts as absent"
  },
  {
   "property": "C25",
   "status": "proved",
   "theorems": [
    "Pulumi.Resolve.failure_reaches_outputs",
    "Pulumi.Resolve.late_failure_reaches_outputs",
    "Pulumi.Resolve.read_failure_reaches_outputs",
    "Pulumi.Resolve.read_bad_response_hangs"
   ],
   "note": "failures up to the reply for register, read and lookup; failures while reading the reply for register. read_bad_response_hangs: read and lookup have no handler for the latter"
  },
  {
   "property": "C26",
   "status": "proved",
   "theorems": [
    "Pulumi.Deps.expand_complete",
    "Pulumi.Deps.expand_exact",
    "Pulumi.Deps.prepared_dependencies_complete",
    "Pulumi.Deps.property_dependencies_complete"
   ],
   "note": "Exception (cycle breaking) is part of the statement: a resource is left out only if it already depended on the registering one."
  },
  {
   "property": "C27",
   "status": "proved",
   "theorems": [
    "Pulumi.Deps.declared_acyclic",
    "Pulumi.Deps.declare_refines_history",
    "Pulumi.Deps.declare_refused_iff",
    "Pulumi.Deps.refused_would_close_cycle",
    "Pulumi.Deps.waiting_never_deadlocks"
   ],
   "note": ""
  },
  {
   "property": "C28",
   "status": "proved",
   "theorems": [
    "Pulumi.Deps.aliases_unique_ordered"
   ],
   "note": ""
  },
  {
   "property": "C29",
   "status": "proved",
   "theorems": [
    "Pulumi.Urn.create_urn_chain",
    "Pulumi.Urn.parse_urn_text",
    "Pulumi.Urn.parse_urn_type",
    "Pulumi.Urn.parse_create_urn",
    "Pulumi.Urn.create_urn_prefix",
    "Pulumi.Urn.parse_ref_iff"
   ],
   "note": "URNs are built and parsed on code-point lists; the provider reference statement is an iff."
  },
  {
   "property": "C30",
   "status": "proved",
   "theorems": [
    "Pulumi.Urn.inherited_alias_is_former_urn",
    "Pulumi.Urn.nameUnder_unique"
   ],
   "note": ""
  },
  {
   "property": "C31",
   "status": "proved",
   "theorems": [
    "Pulumi.Urn.all_aliases_count",
    "Pulumi.Urn.all_aliases_content",
    "Pulumi.Urn.all_aliases_no_parent"
   ],
   "note": ""
  },
  {
   "property": "C32",
   "status": "partial",
   "theorems": [
    "Pulumi.Options.merge_contents",
    "Pulumi.Options.merge_keeps_arguments",
    "Pulumi.Options.merge_assoc",
    "Pulumi.Options.instance_merge_partial",
    "Pulumi.Options.chained_instance_merge",
    "Pulumi.Options.chained_instance_merge_loses_partial",
    "Pulumi.Options.tuple_providers_lost",
    "Pulumi.Options.tuple_lists_merged"
   ],
   "note": "Static ResourceOptions.merge: contents, associativity and frame fully proved. The instance method form chained on a merged bag loses the middle bag (chained_instance_merge, witness chained_instance_merge_loses_partial); a tuple of providers is lost (tuple_providers_lost)."
  },
  {
   "property": "C33",
   "status": "proved",
   "theorems": [
    "Pulumi.Construct.providers_offered",
    "Pulumi.Construct.provider_chosen",
    "Pulumi.Construct.wrong_provider_rejected",
    "Pulumi.Construct.explicit_provider_misfiled",
    "Pulumi.Construct.remote_providers_lost"
   ],
   "note": "For all histories of constructions. explicit_provider_misfiled and remote_providers_lost record surprising consequences."
  },
  {
   "property": "C34",
   "status": "partial",
   "theorems": [
    "Pulumi.Construct.transformations_run",
    "Pulumi.Construct.stack_registration",
    "Pulumi.Construct.stack_transformations_apply_partial",
    "Pulumi.Construct.late_stack_transformation_missed",
    "Pulumi.Construct.dependency_parent_rejected"
   ],
   "note": "Order, threading, None results, re-parenting and registration proved for all histories; a stack transformation registered after a component was built misses that component's later children (late_stack_transformation_missed); with registration first they all apply (stack_transformations_apply_partial)."
  },
  {
   "property": "C35",
   "status": "proved",
   "theorems": [
    "Pulumi.Construct.protection_inherited"
   ],
   "note": ""
  },
  {
   "property": "C36",
   "status": "proved",
   "theorems": [
    "Pulumi.Registry.lookup_best",
    "Pulumi.Registry.answer_unique",
    "Pulumi.Registry.register_rejects",
    "Pulumi.Registry.unparsable_version",
    "Pulumi.Registry.wildcard_alone",
    "Pulumi.Registry.moduleKey_injective",
    "Pulumi.Registry.moduleKey_collision",
    "Pulumi.Registry.acceptance_is_not_the_order"
   ],
   "note": "acceptance is componentwise, so it disagrees with the version order in both directions: acceptance_is_not_the_order; module keys can collide when package names hold colons"
  },
  {
   "property": "C37",
   "status": "proved",
   "theorems": [
    "Pulumi.Conf.getConfig_resolves",
    "Pulumi.Conf.resolves_total",
    "Pulumi.Conf.bad_environment",
    "Pulumi.Conf.set_then_get",
    "Pulumi.Conf.set_is_read",
    "Pulumi.Conf.setAll_isolates",
    "Pulumi.Conf.fork_inherits",
    "Pulumi.Conf.secret_keys",
    "Pulumi.Conf.envKey_spec",
    "Pulumi.Conf.envKey_shared_iff",
    "Pulumi.Conf.set_in_task_leaks"
   ],
   "note": "what a task sets with set_config is also seen by its creator: set_in_task_leaks"
  },
  {
   "property": "C38",
   "status": "proved",
   "theorems": [
    "Pulumi.Conf.get_spec",
    "Pulumi.Conf.require_spec",
    "Pulumi.Conf.finds_total",
    "Pulumi.Conf.convert_reads",
    "Pulumi.Conf.secret_getters_agree",
    "Pulumi.Conf.secret_getters_secret",
    "Pulumi.Conf.null_object_missing"
   ],
   "note": "int(), float() and json.loads are parameters; a key set to null counts as missing: null_object_missing"
  },
  {
   "property": "C39",
   "status": "proved",
   "theorems": [
    "Pulumi.Loop.returned_complete",
    "Pulumi.Loop.failed_rpc_reported",
    "Pulumi.Loop.program_exception_reported",
    "Pulumi.Loop.raised_cause",
    "Pulumi.Loop.quiet_terminates",
    "Pulumi.Loop.failure_waits"
   ],
   "note": "All programs and schedules, with and without await_all_outstanding_tasks: returned_complete, failed_rpc_reported and program_exception_reported say when the loop returns, raised_cause what it raises, quiet_terminates that it ends. failure_waits shows that a failure is only seen when the RPC being awaited is done."
  },
  {
   "property": "C40",
   "status": "proved",
   "theorems": [
    "Pulumi.Server.serialised",
    "Pulumi.Server.own_settings",
    "Pulumi.Server.released",
    "Pulumi.Server.in_order",
    "Pulumi.Server.no_lost_wakeup",
    "Pulumi.Server.can_finish",
    "Pulumi.Server.settings_spec",
    "Pulumi.Server.leftover_sees_other_settings",
    "Pulumi.Server.others_at_once"
   ],
   "note": "All numbers of requests, schedules and cancellations, with asyncio.Lock modelled: serialised, own_settings, released (on every exit, never failing), in_order, no_lost_wakeup, can_finish; settings_spec says what settings a request installs. leftover_sees_other_settings: tasks that outlive their request go on under the next one's settings."
  },
  {
   "property": "C41",
   "status": "proved",
   "theorems": [
    "Pulumi.Output.concat_spec"
   ],
   "note": ""
  },
  {
   "property": "C42",
   "status": "proved",
   "theorems": [
    "Pulumi.Output.lifted_known",
    "Pulumi.Output.lifted_unknown"
   ],
   "note": ""
  },
  {
   "property": "C43",
   "status": "partial",
   "theorems": [
    "Pulumi.Graph.massage_total",
    "Pulumi.Graph.massage_faithful_partial",
    "Pulumi.Graph.massage_loses_shared"
   ],
   "note": "Sharing: the second reference to an already exported object is exported as None; negation proved. Faithfulness proved for graphs without sharing."
  },
  {
   "property": "C44",
   "status": "partial",
   "theorems": [
    "Pulumi.Urn.alias_root_partial",
    "Pulumi.Urn.alias_child_partial",
    "Pulumi.Urn.alias_stack_project_ignored",
    "Pulumi.Urn.alias_urn",
    "Pulumi.Urn.alias_none_rejected"
   ],
   "note": "The stack and project of an alias are ignored when the aliased resource has a parent (alias_stack_project_ignored proves the negation)."
  },
  {
   "property": "C45",
   "status": "proved",
   "theorems": [
    "Pulumi.Wire.names_translated",
    "Pulumi.Wire.property_names"
   ],
   "note": "Sent is the naming rule; property_names is the top level"
  },
  {
   "property": "C46",
   "status": "proved",
   "theorems": [
    "Pulumi.Wire.reference_rebuilt",
    "Pulumi.Wire.component_reference_urn",
    "Pulumi.Wire.custom_reference_id"
   ],
   "note": "URN known and public; id with every combination of flags"
  },
  {
   "property": "C47",
   "status": "proved",
   "theorems": [
    "Pulumi.Resolve.output_dependencies"
   ],
   "note": ""
  },
  {
   "property": "C48",
   "status": "proved",
   "theorems": [
    "Pulumi.Resolve.output_found",
    "Pulumi.Resolve.absent_property",
    "Pulumi.Resolve.list_length",
    "Pulumi.Resolve.scalar_values",
    "Pulumi.Resolve.property_naming"
   ],
   "note": ""
  },
  {
   "property": "C49",
   "status": "partial",
   "theorems": [
    "Pulumi.Conf.bags_separate",
    "Pulumi.Conf.bags_separate_environment",
    "Pulumi.Conf.bags_share_environment",
    "Pulumi.Conf.bags_share_keys"
   ],
   "note": "holds for explicit values; values from environment variables are shared exactly by bags whose names are confused (bags_separate_environment), so the property as documented fails: bags_share_environment"
  },
  {
   "property": "C50",
   "status": "partial",
   "theorems": [
    "Pulumi.Loop.outstanding_awaited_partial",
    "Pulumi.Loop.work_left_behind",
    "Pulumi.Loop.unstarted_rpc_missed"
   ],
   "note": "Proved: every task that existed when the loop last found no outstanding RPC is done. Not so for tasks created during the final wait (work_left_behind), nor without await_all_outstanding_tasks for RPCs asked for but not begun (unstarted_rpc_missed)."
  },
  {
   "property": "C51",
   "status": "partial",
   "theorems": [
    "Pulumi.Loop.requests_independent_partial",
    "Pulumi.Loop.failure_poisons_later_requests",
    "Pulumi.Loop.poisoned_request"
   ],
   "note": "The code violates the property: the server never clears the RPC manager, so once an RPC has failed every later request fails (failure_poisons_later_requests, poisoned_request). Proved: as long as no request fails each starts with a fresh manager."
  },
  {
   "property": "C52",
   "status": "partial",
   "theorems": [
    "Pulumi.Loop.only_failure_reported_partial",
    "Pulumi.Loop.later_failure_reported"
   ],
   "note": "The code violates the property: the loop awaits the RPCs last in first out and raises the exception of the one it awaits (later_failure_reported). Proved: if there is one failure only, that one is raised."
  },
  {
   "property": "C53",
   "status": "partial",
   "theorems": [
    "Pulumi.Server.inputs_arrive",
    "Pulumi.Server.secret_input",
    "Pulumi.Server.plain_input",
    "Pulumi.Server.dependent_input",
    "Pulumi.Server.dependencies_kept_partial",
    "Pulumi.Server.dependency_lost"
   ],
   "note": "inputs_arrive, secret_input, plain_input and dependent_input; dependencies_kept_partial excludes inputs with Outputs inside, for which the code loses dependencies (dependency_lost)."
  },
  {
   "property": "C54",
   "status": "proved",
   "theorems": [
    "Pulumi.Server.response_spec",
    "Pulumi.Server.construct_response_spec",
    "Pulumi.Server.unknown_urn_fails"
   ],
   "note": "All values; that None values are not sent is C15."
  },
  {
   "property": "C55",
   "status": "partial",
   "theorems": [
    "Pulumi.Server.options_partial",
    "Pulumi.Server.provider_reference",
    "Pulumi.Server.parent_dropped"
   ],
   "note": "Proved for aliases, dependencies, protection and providers. Not so for the parent: the condition is inverted, so a requested parent is always dropped (parent_dropped)."
  },
  {
   "property": "C56",
   "status": "proved",
   "theorems": [
    "Pulumi.Pump.never_breaks",
    "Pulumi.Pump.ran_in_order",
    "Pulumi.Pump.own_task",
    "Pulumi.Pump.one_place"
   ],
   "note": "CPython's _run_once, _enter_task and _leave_task are part of the model; handles cancelled by others and timers are not."
  },
  {
   "property": "C57",
   "status": "partial",
   "theorems": [
    "Pulumi.Pump.wait_ends_partial",
    "Pulumi.Pump.waits_nest",
    "Pulumi.Pump.done_but_blocked"
   ],
   "note": "Proved for the innermost wait. Not so for outer ones: waits are nested like calls, so an outer one waits for all inner ones (done_but_blocked), and hangs if they depend on it."
  },
  {
   "property": "C58",
   "status": "proved",
   "theorems": [
    "Pulumi.Invoke.invoke_request",
    "Pulumi.Invoke.invoke_returns",
    "Pulumi.Invoke.invoke_raises",
    "Pulumi.Invoke.bad_arguments_raise",
    "Pulumi.Invoke.provider_reference",
    "Pulumi.Invoke.unnamed_provider_reference"
   ],
   "note": ""
  },
  {
   "property": "C59",
   "status": "partial",
   "theorems": [
    "Pulumi.Invoke.provider_used_partial",
    "Pulumi.Invoke.reused_options"
   ],
   "note": "Proved for invokes of functions of one package. For functions of different packages it does not hold: invoke stores the provider it chose in the caller's options object (reused_options)."
  },
  {
   "property": "C60",
   "status": "partial",
   "theorems": [
    "Pulumi.Invoke.merge_partial",
    "Pulumi.Invoke.merge_total",
    "Pulumi.Invoke.merge_loses_version",
    "Pulumi.Invoke.chained_merge_loses"
   ],
   "note": "Proved for a single merge where a bag that was given no version counts as giving the empty version. Otherwise the version is lost (merge_loses_version), and chained instance merges lose the middle bag (chained_merge_loses)."
  },
  {
   "property": "C61",
   "status": "proved",
   "theorems": [
    "Pulumi.Invoke.call_result",
    "Pulumi.Invoke.call_empty",
    "Pulumi.Invoke.call_settles",
    "Pulumi.Invoke.call_request"
   ],
   "note": "For replies whose object has no signature key at the top, and monitors that do not answer None."
  },
  {
   "property": "C62",
   "status": "proved",
   "theorems": [
    "Pulumi.Register.request_carries",
    "Pulumi.Register.arguments_sent",
    "Pulumi.Register.registers",
    "Pulumi.Register.prompt_dependencies_checked",
    "Pulumi.Register.outputs_sent"
   ],
   "note": "Requests of do_register, do_register_resource_outputs and the check of depends_on."
  },
  {
   "property": "C63",
   "status": "partial",
   "theorems": [
    "Pulumi.Register.named_inputs_partial",
    "Pulumi.Register.named_inputs_only",
    "Pulumi.Register.secret_outputs_named",
    "Pulumi.Register.path_not_translated"
   ],
   "note": "Holds for whole properties; a path below a property (the_tags.x) is not translated (path_not_translated)."
  },
  {
   "property": "C64",
   "status": "partial",
   "theorems": [
    "Pulumi.Register.dependencies_partial",
    "Pulumi.Register.property_dependencies",
    "Pulumi.Register.dependencies_recorded",
    "Pulumi.Register.coroutine_fails",
    "Pulumi.Register.coroutine_entry_fails_later"
   ],
   "note": "Holds unless depends_on is or contains a coroutine: coroutine_fails and coroutine_entry_fails_later are proved negations."
  },
  {
   "property": "C65",
   "status": "partial",
   "theorems": [
    "Pulumi.Register.read_id_partial",
    "Pulumi.Register.reads",
    "Pulumi.Register.read_unknown_id",
    "Pulumi.Register.read_secret_id",
    "Pulumi.Register.read_none_id"
   ],
   "note": "Holds for known ids that are not secret; an unknown id becomes known with the sentinel (read_unknown_id), a secret id fails (read_secret_id)."
  },
  {
   "property": "C66",
   "status": "partial",
   "theorems": [
    "Pulumi.StackRef.fetched",
    "Pulumi.StackRef.unknown_in_preview",
    "Pulumi.StackRef.secretness_partial",
    "Pulumi.StackRef.secret_name_lost",
    "Pulumi.StackRef.secret_name_lost_witness",
    "Pulumi.StackRef.names_property"
   ],
   "note": "Proved except that the secretness of the name is dropped: secret_name_lost, with witness."
  },
  {
   "property": "C67",
   "status": "partial",
   "theorems": [
    "Pulumi.Settings.settings_isolated_partial",
    "Pulumi.Settings.task_inherits",
    "Pulumi.Settings.reset_forgets_root",
    "Pulumi.Settings.dry_run_read",
    "Pulumi.Settings.organization_read",
    "Pulumi.Settings.unset_context_sees_others",
    "Pulumi.Settings.mock_names_ignored_in_threads"
   ],
   "note": "Proved for contexts with settings of their own and tasks made from them. Threads without settings read the first program's (unset_context_sees_others); the mock monitor, which runs in executor threads, ignores the project and stack given to set_mocks (mock_names_ignored_in_threads)."
  },
  {
   "property": "C68",
   "status": "partial",
   "theorems": [
    "Pulumi.Settings.own_monitor_answers_partial",
    "Pulumi.Settings.answer_recorded",
    "Pulumi.Settings.not_asked_again",
    "Pulumi.Settings.new_settings_ask",
    "Pulumi.Settings.mock_keeps_answers"
   ],
   "note": "Proved for settings made as a whole. set_mocks does not make a new feature cache, so a second mock monitor is not asked (mock_keeps_answers)."
  },
  {
   "property": "C69",
   "status": "partial",
   "theorems": [
    "Pulumi.Inline.sequential_runs_partial",
    "Pulumi.Inline.returned_run_complete_partial",
    "Pulumi.Inline.failed_run_raises_partial",
    "Pulumi.Inline.concurrent_failure_swapped",
    "Pulumi.Inline.swapped_not_alone",
    "Pulumi.Inline.cleanup_failure_poisons"
   ],
   "note": "Proved for programs that run one after the other and whose cleanup does not fail. Programs that run at the same time share the RPC manager and can swap failures (concurrent_failure_swapped); a cleanup can fail and then the next program raises the old exception (cleanup_failure_poisons)."
  },
  {
   "property": "C70",
   "status": "partial",
   "theorems": [
    "Pulumi.Inline.response_failure_partial",
    "Pulumi.Inline.run_error_message",
    "Pulumi.Inline.failed_rpc_is_reported_partial",
    "Pulumi.Inline.exit_code",
    "Pulumi.Inline.unavailable_is_success",
    "Pulumi.Inline.empty_run_error_is_success",
    "Pulumi.Inline.error_says_why",
    "Pulumi.Inline.crashed_is_failure"
   ],
   "note": "Proved but for exceptions that are a gRPC error with status UNAVAILABLE or a RunError without message, which are reported as success."
  },
  {
   "property": "C71",
   "status": "partial",
   "theorems": [
    "Pulumi.Inline.run_config_partial",
    "Pulumi.Inline.run_secret_keys_partial",
    "Pulumi.Inline.exec_config",
    "Pulumi.Inline.empty_config_keeps_previous",
    "Pulumi.Inline.stale_secret_keys",
    "Pulumi.Inline.empty_configs_shared"
   ],
   "note": "Proved for requests with configuration and with secret keys. Without them the run keeps those of the thread, or shares the process-wide default dict."
  },
  {
   "property": "C72",
   "status": "proved",
   "theorems": [
    "Pulumi.Mocks.lookup_registered",
    "Pulumi.Mocks.lookup_unknown"
   ],
   "note": "Handlers overlap in any order; the call of the mocks is one step and the assignment to the dict another."
  },
  {
   "property": "C73",
   "status": "partial",
   "theorems": [
    "Pulumi.Mocks.urns_differ_partial",
    "Pulumi.Mocks.shallow_urn",
    "Pulumi.Mocks.grandparents_confused"
   ],
   "note": "Only the parent's own type enters the URN: resources below grandparents of different types collide (grandparents_confused)."
  },
  {
   "property": "C74",
   "status": "partial",
   "theorems": [
    "Pulumi.Mocks.mocks_called",
    "Pulumi.Mocks.calls_total",
    "Pulumi.Mocks.mocks_see_inputs",
    "Pulumi.Mocks.answers_from_mocks",
    "Pulumi.Mocks.program_sees_state",
    "Pulumi.Mocks.call_answered_partial",
    "Pulumi.Mocks.none_failures_raise"
   ],
   "note": "The answer (dict, None), which the signature of Mocks.call allows and its default body returns, raises TypeError (none_failures_raise)."
  },
  {
   "property": "C75",
   "status": "proved",
   "theorems": [
    "Pulumi.Mocks.mocks_see_no_output",
    "Pulumi.Mocks.mocks_see_references",
    "Pulumi.Mocks.mocks_see_secrets",
    "Pulumi.Mocks.other_features_off"
   ],
   "note": ""
  },
  {
   "property": "C76",
   "status": "partial",
   "theorems": [
    "Pulumi.Events.event_shown_partial",
    "Pulumi.Events.event_shown_plain_partial",
    "Pulumi.Events.stream_never_shown",
    "Pulumi.Events.policy_resource_never_shown",
    "Pulumi.Events.detailed_diff_never_shown",
    "Pulumi.Events.unknown_operation_raises"
   ],
   "note": "Three fields are never shown, because the code looks them up under names the engine does not write: streamId for streamID, resource_urn for resourceUrn, detailed_diff for detailedDiff (stream_never_shown, policy_resource_never_shown, detailed_diff_never_shown, for all values). Everything else is proved for all events."
  },
  {
   "property": "C77",
   "status": "partial",
   "theorems": [
    "Pulumi.Events.delivered_in_order",
    "Pulumi.Events.delivered_all_partial",
    "Pulumi.Events.torn_line_loses"
   ],
   "note": "Order and no invention are proved for every schedule. Completeness holds when lines are written whole; a read between two pieces of a line ends the watcher and loses every event (torn_line_loses)."
  },
  {
   "property": "C78",
   "status": "partial",
   "theorems": [
    "Pulumi.Events.watcher_ends_partial",
    "Pulumi.Events.watcher_never_ends"
   ],
   "note": "Holds when the log has a cancel event and arrives in whole lines; without one the thread runs for ever (watcher_never_ends)."
  },
  {
   "property": "C79",
   "status": "partial",
   "theorems": [
    "Pulumi.Events.preview_summary",
    "Pulumi.Events.preview_finds_partial",
    "Pulumi.Events.preview_summary_lost",
    "Pulumi.Events.sample_preview"
   ],
   "note": "The returned summary is right in every schedule; it is found when lines are written whole. A torn line makes preview raise although the log has the summary (preview_summary_lost)."
  },
  {
   "property": "C80",
   "status": "partial",
   "theorems": [
    "Pulumi.Cli.operation_reads_partial",
    "Pulumi.Cli.verbosity_raises",
    "Pulumi.Cli.parallel_zero_lost",
    "Pulumi.Cli.message_makes_interactive",
    "Pulumi.Cli.policy_packs_partial",
    "Pulumi.Cli.comma_splits"
   ],
   "note": "Fails for a log verbosity other than 0 (TypeError before the start), parallel=0 (not passed on), an empty colour and values that are the text --non-interactive; policy packs with commas are split by the CLI."
  },
  {
   "property": "C81",
   "status": "partial",
   "theorems": [
    "Pulumi.Cli.get_config_partial",
    "Pulumi.Cli.set_config_partial",
    "Pulumi.Cli.remove_config_partial",
    "Pulumi.Cli.remove_all_config_partial",
    "Pulumi.Cli.set_all_config_partial",
    "Pulumi.Cli.remove_help_removes_nothing",
    "Pulumi.Cli.set_all_cuts_key"
   ],
   "note": "Fails for keys that look like flags (remove_config('--help') removes nothing) and, for set_all_config, keys with '='."
  },
  {
   "property": "C82",
   "status": "partial",
   "theorems": [
    "Pulumi.Cli.stack_commands_partial",
    "Pulumi.Cli.select_flag_like"
   ],
   "note": "Fails for a name that looks like a flag."
  },
  {
   "property": "C83",
   "status": "partial",
   "theorems": [
    "Pulumi.Cli.env_precedence",
    "Pulumi.Cli.same_home_partial",
    "Pulumi.Cli.empty_home_differs",
    "Pulumi.Cli.debug_commands"
   ],
   "note": "The home is the same for all commands unless it is the empty text."
  },
  {
   "property": "C84",
   "status": "proved",
   "theorems": [
    "Pulumi.Run.output_delivered",
    "Pulumi.Run.stripped_one",
    "Pulumi.Run.waits_for_exit"
   ],
   "note": "For every output and every number of polls."
  },
  {
   "property": "C85",
   "status": "proved",
   "theorems": [
    "Pulumi.Run.error_class",
    "Pulumi.Run.error_class_unique",
    "Pulumi.Run.stack_errors_from_stderr"
   ],
   "note": ""
  },
  {
   "property": "C86",
   "status": "partial",
   "theorems": [
    "Pulumi.Run.select_only_if_exists",
    "Pulumi.Run.create_or_select_partial",
    "Pulumi.Run.create_or_select_races"
   ],
   "note": "Fails when others remove the stack between the two commands."
  },
  {
   "property": "C87",
   "status": "partial",
   "theorems": [
    "Pulumi.Run.version_check_partial",
    "Pulumi.Run.version_text",
    "Pulumi.Run.empty_version_raises"
   ],
   "note": "Fails for a CLI that prints nothing (IndexError)."
  },
  {
   "property": "C88",
   "status": "partial",
   "theorems": [
    "Pulumi.Run.history_pages_partial",
    "Pulumi.Run.history_default_ten",
    "Pulumi.Run.info_newest"
   ],
   "note": "Fails without a page size: the CLI then gives the ten newest entries whatever the page."
  },
  {
   "property": "C89",
   "status": "partial",
   "theorems": [
    "Pulumi.Run.outputs_partial",
    "Pulumi.Run.nested_secret_shown",
    "Pulumi.Run.sentinel_marked",
    "Pulumi.Run.outputs_race"
   ],
   "note": "Fails for a secret inside a value, a plain output that is the text [secret], and an update between the two commands."
  },
  {
   "property": "C90",
   "status": "partial",
   "theorems": [
    "Pulumi.Run.import_cleans_partial",
    "Pulumi.Run.import_leaves_file"
   ],
   "note": "Fails when the command fails."
  },
  {
   "property": "C91",
   "status": "partial",
   "theorems": [
    "Pulumi.Local.stack_settings_round_partial",
    "Pulumi.Local.number_makes_unreadable",
    "Pulumi.Local.structured_lost",
    "Pulumi.Local.stack_settings_readable_iff"
   ],
   "note": "Fails for config values that are not texts: numbers, booleans and None make the settings unreadable, lists and mappings are lost."
  },
  {
   "property": "C92",
   "status": "partial",
   "theorems": [
    "Pulumi.Local.resave_keeps_partial",
    "Pulumi.Local.resave_deletes"
   ],
   "note": "Fails for files with structured config or other keys: reading and saving back deletes them."
  },
  {
   "property": "C93",
   "status": "proved",
   "theorems": [
    "Pulumi.Local.save_writes_one",
    "Pulumi.Local.stacks_independent",
    "Pulumi.Local.project_independent",
    "Pulumi.Local.settings_shared",
    "Pulumi.Local.last_part_unique"
   ],
   "note": ""
  },
  {
   "property": "C94",
   "status": "partial",
   "theorems": [
    "Pulumi.Local.project_settings_round_partial",
    "Pulumi.Local.object_makes_unreadable",
    "Pulumi.Local.object_destroys_json",
    "Pulumi.Local.cli_project_unreadable",
    "Pulumi.Local.project_settings_accepted_iff",
    "Pulumi.Local.project_settings_kept",
    "Pulumi.Local.project_file_without_nulls"
   ],
   "note": "Fails with instances of ProjectRuntimeInfo, ProjectTemplate or ProjectBackend, and for keys and runtimes that only the CLI knows."
  },
  {
   "property": "C95",
   "status": "partial",
   "theorems": [
    "Pulumi.Local.inline_project",
    "Pulumi.Local.inline_project_kept",
    "Pulumi.Local.inline_project_given",
    "Pulumi.Local.local_project",
    "Pulumi.Local.no_source_raises",
    "Pulumi.Local.reused_options_keep_project",
    "Pulumi.Local.reused_options_overwrite_local"
   ],
   "note": "Fails when an options object is used again: the first project is kept, and a local project's settings are overwritten."
  },
  {
   "property": "C96",
   "status": "partial",
   "theorems": [
    "Pulumi.Local.history_entries_partial",
    "Pulumi.Local.history_running_raises",
    "Pulumi.Local.history_hidden_raises",
    "Pulumi.Local.all_config_read"
   ],
   "note": "Fails for running updates and, with show_secrets=False, for updates with secret config."
  },
  {
   "property": "C97",
   "status": "partial",
   "theorems": [
    "Pulumi.Local.list_stacks_read",
    "Pulumi.Local.current_stack_read",
    "Pulumi.Local.list_plugins_partial",
    "Pulumi.Local.unused_plugin_raises"
   ],
   "note": "Fails for plugins that have not been used."
  },
  {
   "property": "C98",
   "status": "partial",
   "theorems": [
    "Pulumi.Local.remove_plugin_partial",
    "Pulumi.Local.version_taken_for_name",
    "Pulumi.Local.install_plugin_partial"
   ],
   "note": "Fails for a version range without a name, which is taken for a name."
  },
  {
   "property": "C99",
   "status": "proved",
   "theorems": [
    "Pulumi.Dynamic.provider_kept"
   ],
   "note": "For providers that do not change the reserved entry of the dicts they are given."
  },
  {
   "property": "C100",
   "status": "partial",
   "theorems": [
    "Pulumi.Dynamic.create_reports",
    "Pulumi.Dynamic.update_reports",
    "Pulumi.Dynamic.check_reports",
    "Pulumi.Dynamic.failures_reported",
    "Pulumi.Dynamic.default_update_empties"
   ],
   "note": "For plain properties. A provider that does not override update loses all properties of the resource."
  },
  {
   "property": "C101",
   "status": "proved",
   "theorems": [
    "Pulumi.Dynamic.inputs_reach_provider",
    "Pulumi.Dynamic.default_check_echo"
   ],
   "note": ""
  },
  {
   "property": "C102",
   "status": "partial",
   "theorems": [
    "Pulumi.Dynamic.new_provider_used_partial",
    "Pulumi.Dynamic.unknown_provider_raises"
   ],
   "note": "Fails when the new provider is unknown: Check and Diff always raise."
  },
  {
   "property": "C103",
   "status": "partial",
   "theorems": [
    "Pulumi.Dynamic.diff_reported",
    "Pulumi.Dynamic.stables_dropped"
   ],
   "note": "Stable properties are never reported."
  },
  {
   "property": "C104",
   "status": "partial",
   "theorems": [
    "Pulumi.Dynamic.read_reports_partial",
    "Pulumi.Dynamic.missing_raises"
   ],
   "note": "Fails for a resource that is gone: the documented ReadResult() makes the refresh fail."
  },
  {
   "property": "C105",
   "status": "partial",
   "theorems": [
    "Pulumi.Dynamic.construct_registers",
    "Pulumi.Dynamic.props_reuse_raises"
   ],
   "note": "Fails when the dict of properties is used again."
  },
  {
   "property": "C106",
   "status": "partial",
   "theorems": [
    "Pulumi.Dynamic.type_names_distinct_partial",
    "Pulumi.Dynamic.inherited_type_lost",
    "Pulumi.Dynamic.base_class_raises",
    "Pulumi.Dynamic.colon_collision"
   ],
   "note": "For names without a colon. Fails for subclasses of a class with a type, for Resource itself and for colons."
  },
  {
   "property": "C107",
   "status": "partial",
   "theorems": [
    "Pulumi.Dynamic.Pickle.same_data_same_bytes",
    "Pulumi.Dynamic.Pickle.set_order_matters",
    "Pulumi.Dynamic.Pickle.sharing_matters"
   ],
   "note": "Order of entries of dicts at any depth. Fails for sets and for shared objects."
  },
  {
   "property": "C108",
   "status": "partial",
   "theorems": [
    "Pulumi.Dynamic.Pickle.pickled_alike_partial",
    "Pulumi.Dynamic.Pickle.too_many_raise",
    "Pulumi.Dynamic.Pickle.mixed_keys_raise"
   ],
   "note": "Within the recursion limit and for keys of one type. Fails for many resources and for dicts with keys of two types."
  },
  {
   "property": "C109",
   "status": "partial",
   "theorems": [
    "Pulumi.Dynamic.Pickle.pickler_restored",
    "Pulumi.Dynamic.Pickle.patch_remains"
   ],
   "note": "The name pickle.Pickler is restored; the replaced methods of the Python pickler remain."
  },
  {
   "property": "C110",
   "status": "partial",
   "theorems": [
    "Pulumi.Types.wrappers_unwrapped_partial",
    "Pulumi.Types.input_optional_kept",
    "Pulumi.Types.optional_output_kept",
    "Pulumi.Types.none_first_raises",
    "Pulumi.Types.dict_union_lost",
    "Pulumi.Types.bare_dict_union"
   ],
   "note": "All documented wrappers unwrap. Not all nestings: Input[Optional[T]] and Optional[Output[T]] stay wrapped, Union[None, T] raises, a union of T with a dict loses the dict (negations). Python's normalisation of unions is modelled."
  },
  {
   "property": "C111",
   "status": "proved",
   "theorems": [
    "Pulumi.Types.input_type_constructed"
   ],
   "note": ""
  },
  {
   "property": "C112",
   "status": "proved",
   "theorems": [
    "Pulumi.Types.assigned_properties",
    "Pulumi.Types.properties_always_read",
    "Pulumi.Types.misspelt_assignment_ignored"
   ],
   "note": "A misspelt name is accepted silently and has no effect (misspelt_assignment_ignored)."
  },
  {
   "property": "C113",
   "status": "proved",
   "theorems": [
    "Pulumi.Types.input_forms_agree",
    "Pulumi.Types.output_forms_agree"
   ],
   "note": ""
  },
  {
   "property": "C114",
   "status": "partial",
   "theorems": [
    "Pulumi.Types.output_type_received",
    "Pulumi.Types.output_default_ignored"
   ],
   "note": "Proved but for the last sentence: defaults are never applied to what the engine left out (negation). The translated names must differ."
  },
  {
   "property": "C115",
   "status": "partial",
   "theorems": [
    "Pulumi.Types.constructed_equal",
    "Pulumi.Types.assigned_none_unequal"
   ],
   "note": "Proved for instances as constructed; false after None was assigned (negation)."
  },
  {
   "property": "C116",
   "status": "partial",
   "theorems": [
    "Pulumi.Types.subclass_of_input_type",
    "Pulumi.Types.decorated_once",
    "Pulumi.Types.defaults_come_last",
    "Pulumi.Types.redeclared_marker_raises",
    "Pulumi.Types.overridden_property_lost"
   ],
   "note": "All but the last sentence; annotations of an undecorated base are lost, redeclaring one raises AttributeError, and a base's property with an empty setter takes the place of the class's own (negations)."
  },
  {
   "property": "C117",
   "status": "partial",
   "theorems": [
    "Pulumi.Types.resource_outputs_found",
    "Pulumi.Types.option_names_translated",
    "Pulumi.Types.resource_types_found",
    "Pulumi.Types.output_types_found",
    "Pulumi.Types.subclass_names_kept",
    "Pulumi.Types.subclass_names_lost",
    "Pulumi.Types.nested_option_name_kept"
   ],
   "note": "Proved for the class that declares the properties, and for subclasses if it does so by getters; a subclass of a class declared by annotations loses names and types (subclass_names_lost), and paths into a property are not translated (nested_option_name_kept)."
  },
  {
   "property": "C118",
   "status": "partial",
   "theorems": [
    "Pulumi.Json.to_json_says_the_object_partial",
    "Pulumi.Json.to_json_injective",
    "Pulumi.Json.json_strings_round_trip",
    "Pulumi.Json.to_json_is_one_ascii_line",
    "Pulumi.Json.to_json_input_in_tuple",
    "Pulumi.Json.to_json_dict_input_in_tuple",
    "Pulumi.Json.not_every_object_said",
    "Pulumi.Json.to_json_two_members_of_one_name",
    "Pulumi.Json.to_json_writes",
    "Pulumi.Json.to_json_dict_inputs_in_tuple"
   ],
   "note": "False of input types and non-dict mappings inside tuples, which are not converted: TypeError, or the Python names are written. Keys that are no texts may give two members of one name. json.dumps of the standard library is modelled too; floats are abstract with an injective repr."
  },
  {
   "property": "C119",
   "status": "partial",
   "theorems": [
    "Pulumi.Log.call_effects",
    "Pulumi.Log.messages_are_what_was_logged",
    "Pulumi.Log.plain_messages_arrive_at_once",
    "Pulumi.Log.messages_arrive_partial",
    "Pulumi.Log.order_not_kept",
    "Pulumi.Log.message_lost_when_rpc_fails",
    "Pulumi.Log.message_lost_though_returned"
   ],
   "note": "Messages about resources are lost when an RPC fails first, and those that a coroutine logs as the last thing the loop waits for may be lost in a successful run; order is kept only among messages without a resource. Proved on top of the event loop of Loop, for all interleavings."
  },
  {
   "property": "C120",
   "status": "partial",
   "theorems": [
    "Pulumi.Exec.request_runs_partial",
    "Pulumi.Exec.two_dashes",
    "Pulumi.Exec.one_dashes",
    "Pulumi.Exec.stack_overridden",
    "Pulumi.Exec.help_reports_success",
    "Pulumi.Exec.dash_argument_refused",
    "Pulumi.Exec.dash_stack_refused",
    "Pulumi.Exec.success_iff",
    "Pulumi.Exec.told_of_end"
   ],
   "note": "If nothing begins with a dash, the request is honoured exactly; two dashes before the arguments pass anything on. Negations proved: stack names that begin with a dash never run; arguments of the program are taken for options of the executor; -h is reported as success; a second -- is lost."
  },
  {
   "property": "C121",
   "status": "partial",
   "theorems": [
    "Pulumi.Exec.config_arrives",
    "Pulumi.Exec.config_absent_partial",
    "Pulumi.Exec.secret_keys_leak",
    "Pulumi.Exec.inherited_config"
   ],
   "note": "Configured keys arrive for all texts and environments. Negations proved for keys that are not configured: the list of secret keys is the value of secret:keys; with an empty configuration the host's own PULUMI_CONFIG is read, with nothing secret."
  },
  {
   "property": "C122",
   "status": "partial",
   "theorems": [
    "Pulumi.Exec.shown_suffix",
    "Pulumi.Exec.file_frames_kept",
    "Pulumi.Exec.file_frames_only",
    "Pulumi.Exec.directory_frames_kept_partial",
    "Pulumi.Exec.dotted_directory_full"
   ],
   "note": "Proved for files, and for directories whose name has no extension. Negation proved: a directory whose name has an extension is not recognised."
  },
  {
   "property": "C123",
   "status": "partial",
   "theorems": [
    "Pulumi.Exec.policy_config",
    "Pulumi.Exec.policy_no_secrets",
    "Pulumi.Exec.policy_settings",
    "Pulumi.Exec.policy_exit"
   ],
   "note": "All but secrets: no key is a secret in a policy pack (proved)."
  },
  {
   "property": "C124",
   "status": "proved",
   "theorems": [
    "Pulumi.Flow.program_shows",
    "Pulumi.Flow.dependencies_sound"
   ],
   "note": "End-to-end noninterference over the event loop model; callbacks do not raise and plain values are data"
  },
  {
   "property": "C125",
   "status": "proved",
   "theorems": [
    "Pulumi.Flow.secrets_contained",
    "Pulumi.Flow.unsecret_reveals"
   ],
   "note": "Over the event loop model; unsecret_reveals shows why unsecret is excluded"
  },
  {
   "property": "C126",
   "status": "proved",
   "theorems": [
    "Pulumi.Flow.unrelated_unaffected",
    "Pulumi.Flow.unrelated_outputs"
   ],
   "note": "Over the meaning of expressions, which program_shows ties to executions"
  },
  {
   "property": "C127",
   "status": "partial",
   "theorems": [
    "Pulumi.Flow.request_dependencies_sound_partial",
    "Pulumi.Flow.absent_property_untracked"
   ],
   "note": "Properties present in the request. The code violates the rest: a property that serialises to None is dropped together with its dependencies (absent_property_untracked)"
  },
  {
   "property": "C128",
   "status": "proved",
   "theorems": [
    "Pulumi.Flow.request_secrets_contained"
   ],
   "note": "Custom resources (keep_output_values off), same environment of URNs and ids in both runs"
  },
  {
   "property": "C129",
   "status": "partial",
   "theorems": [
    "Pulumi.Engine.engine_reads",
    "Pulumi.Engine.request_read",
    "Pulumi.Engine.means_unique",
    "Pulumi.Engine.reserved_read_as_unknown",
    "Pulumi.Engine.unknown_secret_read_as_public",
    "Pulumi.Engine.secret_id_refused",
    "Pulumi.Engine.unknown_urn_refused"
   ],
   "note": "Proved for all sendable values: engine_reads, request_read, with means_unique (the specification determines one reading). Partial because four negations are proved: reserved strings, unknown secret Outputs, secret ids, unknown URNs. Association lists stand for Go maps; numbers are integers."
  },
  {
   "property": "C130",
   "status": "partial",
   "theorems": [
    "Pulumi.Engine.answer_seen",
    "Pulumi.Engine.response_seen",
    "Pulumi.Engine.shown_unique",
    "Pulumi.Engine.answers_shown",
    "Pulumi.Engine.unknown_seen_as_text",
    "Pulumi.Engine.empty_asset_fails",
    "Pulumi.Engine.empty_text_comes_back"
   ],
   "note": "Proved for every answerable value: answer_seen, response_seen, shown_unique, answers_shown. Partial because of the negations unknown_seen_as_text, empty_asset_fails and empty_text_comes_back."
  },
  {
   "property": "C131",
   "status": "proved",
   "theorems": [
    "Pulumi.Engine.engine_echo",
    "Pulumi.Engine.properties_echo",
    "Pulumi.Engine.data_comes_back",
    "Pulumi.Engine.secret_comes_back",
    "Pulumi.Engine.dropped_output_echo"
   ],
   "note": "engine_echo and properties_echo for all clean values; data_comes_back and secret_comes_back compose the Python and the Go codec in both directions. dropped_output_echo says what happens to output values that are not kept."
  },
  {
   "property": "C132",
   "status": "partial",
   "theorems": [
    "Pulumi.Engine.reader_gets_wanted",
    "Pulumi.Engine.reader_gets_wanted_properties",
    "Pulumi.Engine.writer_sends_accepted",
    "Pulumi.Engine.writer_refuses_unknowns",
    "Pulumi.Engine.secret_null_stays"
   ],
   "note": "Proved for every value and all options. A secret whose value is null is not skipped as a null property when secrets are unwrapped (proved); the writer's half needs that reserved strings do not occur in the value."
  },
  {
   "property": "C133",
   "status": "partial",
   "theorems": [
    "Pulumi.Snapshot.crash_safe_partial",
    "Pulumi.Snapshot.read_replacement_forgets",
    "Pulumi.Snapshot.unknown_create_forgets",
    "Pulumi.Snapshot.failed_delete_forgets",
    "Pulumi.Snapshot.targeted_delete_forgets"
   ],
   "note": "Proved for histories without four things the engine does, each of which is shown to make the checkpoint forget a resource: reading a resource in the place of an owned one, a create that happens and is reported to have failed with an unknown status, dropping a state flagged as pending replacement although its deletion failed, and rebuilding the base while a targeted delete is in progress."
  },
  {
   "property": "C134",
   "status": "partial",
   "theorems": [
    "Pulumi.Snapshot.create_in_progress_is_pending_partial",
    "Pulumi.Snapshot.interrupted_create_stays"
   ],
   "note": "The second half is proved without any assumption; the first under those of C133."
  },
  {
   "property": "C135",
   "status": "proved",
   "theorems": [
    "Pulumi.Snapshot.failed_step_changes_no_resource",
    "Pulumi.Snapshot.skipped_create_is_not_listed",
    "Pulumi.Snapshot.close_writes_everything"
   ],
   "note": ""
  },
  {
   "property": "C136",
   "status": "proved",
   "theorems": [
    "Pulumi.Snapshot.verify_iff_intact",
    "Pulumi.Snapshot.verify_says_why"
   ],
   "note": "The check is characterised exactly, and so are its reasons for refusing."
  },
  {
   "property": "C137",
   "status": "proved",
   "theorems": [
    "Pulumi.Snapshot.rebuild_keeps_intact",
    "Pulumi.Snapshot.rebuild_repairs_dependencies",
    "Pulumi.Snapshot.rebuild_repairs_parents",
    "Pulumi.Snapshot.grandparent_is_lost"
   ],
   "note": "The statement follows the code; its comment claims that the parent of a parent that is gone is adopted, which grandparent_is_lost refutes."
  },
  {
   "property": "C138",
   "status": "partial",
   "theorems": [
    "Pulumi.Snapshot.checkpoint_intact_partial",
    "Pulumi.Snapshot.replaced_provider_is_missing",
    "Pulumi.Snapshot.imported_replacement_is_listed_twice"
   ],
   "note": "Proved for every history of updates that keep order: no aliases, what a state refers to is recorded before it, a state is dropped without a successor only when nothing needs it. Missing: that the engine's step generator keeps that order; it does not in the two cases proved to leave a checkpoint the next update refuses."
  },
  {
   "property": "C139",
   "status": "partial",
   "theorems": [
    "Pulumi.Snapshot.normalize_renames",
    "Pulumi.Snapshot.normalize_fails_iff",
    "Pulumi.Snapshot.normalize_settles_partial",
    "Pulumi.Snapshot.reused_name_redirects"
   ],
   "note": "The last sentence is false when a former name is in use again (reused_name_redirects) and proved otherwise."
  },
  {
   "property": "C140",
   "status": "proved",
   "theorems": [
    "Pulumi.DepGraph.dependents_are_scanned",
    "Pulumi.DepGraph.dependents_are_exact",
    "Pulumi.DepGraph.dependents_are_in_order"
   ],
   "note": ""
  },
  {
   "property": "C141",
   "status": "proved",
   "theorems": [
    "Pulumi.DepGraph.batches_respect_dependencies",
    "Pulumi.DepGraph.batches_are_exact",
    "Pulumi.DepGraph.untrusted_deletes_are_serial"
   ],
   "note": "The graph may not be built when a checkpoint that repeats a URN has a cycle of parents; batches_are_exact assumes no repeated URN, batches_respect_dependencies does not."
  },
  {
   "property": "C142",
   "status": "proved",
   "theorems": [
    "Pulumi.DepGraph.deletes_what_the_program_dropped",
    "Pulumi.DepGraph.deletions_go_backwards",
    "Pulumi.DepGraph.serial_deletes_respect_dependencies",
    "Pulumi.DepGraph.pending_deletes_are_exact",
    "Pulumi.DepGraph.destroy_deletes_everything"
   ],
   "note": ""
  },
  {
   "property": "C143",
   "status": "partial",
   "theorems": [
    "Pulumi.DepGraph.targeted_deletes_are_exact",
    "Pulumi.DepGraph.targeted_destroy_leaves_an_intact_stack"
   ],
   "note": "Proved for checkpoints in which no state is waiting to be deleted (Settled)."
  },
  {
   "property": "C144",
   "status": "proved",
   "theorems": [
    "Pulumi.DepGraph.dependent_replacements_are_exact",
    "Pulumi.DepGraph.users_of_a_replaced_provider_go"
   ],
   "note": ""
  },
  {
   "property": "C145",
   "status": "proved",
   "theorems": [
    "Pulumi.DepGraph.state_delete_keeps_intact",
    "Pulumi.DepGraph.state_delete_is_exact",
    "Pulumi.DepGraph.locate_is_exact",
    "Pulumi.DepGraph.unprotect_keeps_intact"
   ],
   "note": ""
  },
  {
   "property": "C146",
   "status": "partial",
   "theorems": [
    "Pulumi.DepGraph.exclude_protected_spares_partial",
    "Pulumi.DepGraph.exclude_protected_destroys_the_rest",
    "Pulumi.DepGraph.exclude_protected_may_doom_a_provider"
   ],
   "note": "False with chains of providers: the walk over a Go map may miss a provider that comes into use during it (exclude_protected_may_doom_a_provider). Proved where no protected resource has such a chain; without that assumption, what is spared is sound and takes in all but the end of the chain. Assumes no state is waiting to be deleted."
  },
  {
   "property": "C147",
   "status": "proved",
   "theorems": [
    "Pulumi.Rename.urn_fields_read_back",
    "Pulumi.Rename.urn_type_read_back",
    "Pulumi.Rename.valid_urn_iff",
    "Pulumi.Rename.urn_determines_fields",
    "Pulumi.Rename.valid_urn_may_crash",
    "Pulumi.Rename.names_may_be_confused",
    "Pulumi.Rename.rename_replaces_name"
   ],
   "note": "The check of the form accepts odd URNs of a stack without a name, and reading their name crashes (valid_urn_may_crash). Names with the separator are confused with others (names_may_be_confused)."
  },
  {
   "property": "C148",
   "status": "proved",
   "theorems": [
    "Pulumi.Rename.reference_round_trip",
    "Pulumi.Rename.reference_read_then_written",
    "Pulumi.Rename.provider_urn_iff"
   ],
   "note": ""
  },
  {
   "property": "C149",
   "status": "partial",
   "theorems": [
    "Pulumi.Rename.rename_stack_moves_everything_partial",
    "Pulumi.Rename.rename_stack_back",
    "Pulumi.Rename.rename_stack_same",
    "Pulumi.Rename.rename_stack_checks",
    "Pulumi.Rename.rename_stack_keeps_aliases",
    "Pulumi.Rename.rename_stack_may_merge",
    "Pulumi.Rename.rename_stack_may_crash"
   ],
   "note": "False for names with the separator in them, which programs may choose: two resources may become one (rename_stack_may_merge), and the renaming may crash (rename_stack_may_crash). Proved for checkpoints whose URNs are all of the stack and made of parts that can be told apart. Aliases are not renamed (rename_stack_keeps_aliases)."
  },
  {
   "property": "C150",
   "status": "proved",
   "theorems": [
    "Pulumi.Rename.state_rename_refuses",
    "Pulumi.Rename.state_rename_crashes_iff",
    "Pulumi.Rename.state_rename_renames",
    "Pulumi.Rename.state_rename_checks_urn",
    "Pulumi.Rename.rename_may_be_final"
   ],
   "note": "Pending operations keep the old URN. A resource given a name with the separator in it cannot be renamed again (rename_may_be_final)."
  },
  {
   "property": "C151",
   "status": "proved",
   "theorems": [
    "Pulumi.Paths.path_round_trip",
    "Pulumi.Paths.path_text_injective",
    "Pulumi.Paths.path_continues",
    "Pulumi.Paths.wildcard_spellings",
    "Pulumi.Paths.quotes_optional",
    "Pulumi.Paths.dots_tolerated",
    "Pulumi.Paths.unprintable_names_lost",
    "Pulumi.Paths.bad_paths",
    "Pulumi.Paths.contains_iff",
    "Pulumi.Paths.covers_trans",
    "Pulumi.Paths.star_covers",
    "Pulumi.Paths.covers_prefix"
   ],
   "note": "Names that are empty or end with a backslash are not read back (unprintable_names_lost)."
  },
  {
   "property": "C152",
   "status": "proved",
   "theorems": [
    "Pulumi.Paths.set_then_get",
    "Pulumi.Paths.delete_then_get",
    "Pulumi.Paths.set_works_iff",
    "Pulumi.Paths.set_same",
    "Pulumi.Paths.empty_path_unset",
    "Pulumi.Paths.secrets_opaque"
   ],
   "note": "Add is not modelled: nothing calls it."
  },
  {
   "property": "C153",
   "status": "proved",
   "theorems": [
    "Pulumi.Paths.replaced_exactly",
    "Pulumi.Paths.changes_shown",
    "Pulumi.Paths.replace_fails_exactly",
    "Pulumi.Paths.odd_key_fails_update",
    "Pulumi.Paths.inner_path_misses_outer_change",
    "Pulumi.Paths.replacing_keeps_change"
   ],
   "note": "A change whose path has an unclosed bracket fails the update even without replaceOnChanges (odd_key_fails_update); a path inside a property that comes or goes as a whole is not covered (inner_path_misses_outer_change)."
  },
  {
   "property": "C154",
   "status": "proved",
   "theorems": [
    "Pulumi.Paths.ignored_kept",
    "Pulumi.Paths.others_unchanged",
    "Pulumi.Paths.old_inputs_kept",
    "Pulumi.Paths.crash_exactly",
    "Pulumi.Paths.refused_exactly",
    "Pulumi.Paths.shorter_array_refused",
    "Pulumi.Paths.order_matters",
    "Pulumi.Paths.wildcard_ignores_nothing",
    "Pulumi.Paths.inside_secret_not_ignored"
   ],
   "note": "A text without a key panics (crash_exactly); a wildcard, a text that is no path and what is inside a secret are silently not ignored (wildcard_ignores_nothing, inside_secret_not_ignored); with paths inside one another the order matters (order_matters)."
  },
  {
   "property": "C155",
   "status": "partial",
   "theorems": [
    "Pulumi.Paths.goal_unchanged",
    "Pulumi.Paths.goal_overwritten",
    "Pulumi.Paths.replacement_differs"
   ],
   "note": "False: it holds for properties ignored as a whole (goal_unchanged), but paths of two keys or more are overwritten in the program's own inputs, so there the old value is kept even in a replacement (goal_overwritten, replacement_differs)."
  },
  {
   "property": "C156",
   "status": "proved",
   "theorems": [
    "Pulumi.StepGen.each_event_makes_one_resource",
    "Pulumi.StepGen.a_second_registration_is_refused",
    "Pulumi.StepGen.an_update_makes_every_resource_once"
   ],
   "note": "All ways through GenerateSteps and GenerateReadSteps; an update's new states are as many as its events, with distinct URNs."
  },
  {
   "property": "C157",
   "status": "partial",
   "theorems": [
    "Pulumi.StepGen.every_resource_has_one_fate_partial",
    "Pulumi.StepGen.resources_keep_their_urn",
    "Pulumi.StepGen.what_the_program_dropped_is_deleted",
    "Pulumi.StepGen.resources_are_succeeded_once",
    "Pulumi.StepGen.what_was_deleted_ahead_is_made_again_or_forgotten",
    "Pulumi.StepGen.aliases_can_keep_what_is_deleted",
    "Pulumi.StepGen.aliases_can_delete_twice",
    "Pulumi.StepGen.reading_what_was_deleted_deletes_twice",
    "Pulumi.StepGen.what_awaits_replacement_can_be_kept"
   ],
   "note": "Proved for programs without aliases that read nothing they deleted, of resources that no earlier update left awaiting replacement. In the cases left out it is false: aliases_can_keep_what_is_deleted, aliases_can_delete_twice, reading_what_was_deleted_deletes_twice, what_awaits_replacement_can_be_kept."
  },
  {
   "property": "C158",
   "status": "partial",
   "theorems": [
    "Pulumi.StepGen.resources_are_taken_over_once_partial",
    "Pulumi.StepGen.aliases_can_share_a_resource",
    "Pulumi.StepGen.aliases_can_share_a_resource'",
    "Pulumi.StepGen.imports_by_the_same_alias_crash"
   ],
   "note": "Proved where no URN of the program is an alias of another resource and nothing is imported; false otherwise."
  },
  {
   "property": "C159",
   "status": "partial",
   "theorems": [
    "Pulumi.StepGen.protected_resources_are_not_deleted_partial",
    "Pulumi.StepGen.protected_resources_are_not_replaced",
    "Pulumi.StepGen.protected_dependents_are_deleted",
    "Pulumi.StepGen.importing_deletes_protected_resources",
    "Pulumi.StepGen.reading_deletes_protected_resources",
    "Pulumi.StepGen.protected_leftovers_block_updates"
   ],
   "note": "Proved but for resources that depend on one that is deleted before it is replaced, and for imports and reads in place of the resource, where it is false."
  },
  {
   "property": "C160",
   "status": "partial",
   "theorems": [
    "Pulumi.StepGen.targeted_updates_touch_what_was_chosen_partial",
    "Pulumi.StepGen.targeted_updates_delete_for_what_was_chosen",
    "Pulumi.StepGen.nothing_made_depends_on_what_was_skipped"
   ],
   "note": "Proved up to the exceptions the statement of the theorem lists, each of which is real (examples): reads, imports, missing providers, resources read before, and dependents of a target that is deleted before it is replaced."
  },
  {
   "property": "C161",
   "status": "partial",
   "theorems": [
    "Pulumi.StepGen.updates_fail_no_assertion_partial",
    "Pulumi.StepGen.leftover_dependents_crash",
    "Pulumi.StepGen.aliases_of_a_replaced_resource_crash"
   ],
   "note": "Proved for checkpoints with nothing left to be deleted and programs without aliases; false otherwise."
  },
  {
   "property": "C162",
   "status": "proved",
   "theorems": [
    "Pulumi.StepGen.dependents_go_first",
    "Pulumi.StepGen.created_before_deleted",
    "Pulumi.StepGen.deleted_before_created"
   ],
   "note": "The order within a registration holds for all programs; that of deletion and creation over the whole update for programs without aliases that read nothing they deleted, as in C157."
  },
  {
   "property": "C163",
   "status": "proved",
   "theorems": [
    "Pulumi.StepGen.new_resources_are_created",
    "Pulumi.StepGen.unchanged_resources_stay",
    "Pulumi.StepGen.changed_resources_are_updated",
    "Pulumi.StepGen.replaced_resources_are_replaced"
   ],
   "note": "Proved for registrations without aliases and imports, which C158 and the model treat apart; what is not a target is C160."
  },
  {
   "property": "C164",
   "status": "proved",
   "theorems": [
    "Pulumi.StepGen.parents_come_first",
    "Pulumi.StepGen.parents_come_before_reads"
   ],
   "note": "For registrations and reads."
  },
  {
   "property": "C165",
   "status": "partial",
   "theorems": [
    "Pulumi.Props.equal_refl",
    "Pulumi.Props.equal_symm",
    "Pulumi.Props.equal_trans",
    "Pulumi.Props.comparison_works",
    "Pulumi.Props.unknown_arrays_end_the_program",
    "Pulumi.Props.outputs_break_equality",
    "Pulumi.Props.equal_iff_same"
   ],
   "note": "Values with outputs are not an equivalence (outputs_break_equality), comparing two unknown arrays ends the program (unknown_arrays_end_the_program); proved for values without outputs (symmetry, transitivity) whose unknowns stand for flat values."
  },
  {
   "property": "C166",
   "status": "partial",
   "theorems": [
    "Pulumi.Props.diff_works",
    "Pulumi.Props.no_diff_iff_equal"
   ],
   "note": "New values without outputs: a new output is never different."
  },
  {
   "property": "C167",
   "status": "partial",
   "theorems": [
    "Pulumi.Props.diff_patches"
   ],
   "note": "Values without outputs, and nothing ignored."
  },
  {
   "property": "C168",
   "status": "partial",
   "theorems": [
    "Pulumi.Props.diff_sorts"
   ],
   "note": "Maps without outputs."
  },
  {
   "property": "C169",
   "status": "partial",
   "theorems": [
    "Pulumi.Props.ignored_keys_stay_out_partial",
    "Pulumi.Props.only_ignored_is_same",
    "Pulumi.Props.ignored_keys_in_arrays"
   ],
   "note": "Not so inside arrays and secrets (ignored_keys_in_arrays): ignoreKeys are not passed on there."
  },
  {
   "property": "C170",
   "status": "partial",
   "theorems": [
    "Pulumi.Props.detailed_names_changes_partial",
    "Pulumi.Props.detailed_misses_nothing_partial",
    "Pulumi.Props.dotted_keys_collide",
    "Pulumi.Props.dotted_keys_mislead"
   ],
   "note": "Keys that need no quotes. With dots or brackets in keys, entries collide and name other places (dotted_keys_collide, dotted_keys_mislead)."
  },
  {
   "property": "C171",
   "status": "partial",
   "theorems": [
    "Pulumi.Props.answers_are_kept",
    "Pulumi.Props.unknown_is_decided_partial",
    "Pulumi.Props.unknown_spares_ignored_partial",
    "Pulumi.Props.refused_is_unsaid"
   ],
   "note": "Inputs without outputs; for the entries, keys that need no quotes. A path that cannot be ignored gives the empty answer and no error (refused_is_unsaid)."
  },
  {
   "property": "C172",
   "status": "proved",
   "theorems": [
    "Pulumi.Plan.updates_keep_to_the_plan",
    "Pulumi.Plan.nothing_unplanned",
    "Pulumi.Plan.constrainedTo_iff"
   ],
   "note": "For the operations as the step generator checks them, one after the other; see the Plan section of DESIGN.md for what is not checked (reads, leftovers of earlier updates)."
  },
  {
   "property": "C173",
   "status": "proved",
   "theorems": [
    "Pulumi.Plan.plan_allows_its_own_outcomes",
    "Pulumi.Plan.resolves_of_eqU",
    "Pulumi.Plan.eqU_of_resolves"
   ],
   "note": "Proved for inputs without output values and with blobs that have hashes where they are compared."
  },
  {
   "property": "C174",
   "status": "partial",
   "theorems": [
    "Pulumi.Plan.inputs_keep_to_the_plan_partial",
    "Pulumi.Plan.planned_delete_forgotten"
   ],
   "note": "A property planned to be deleted may stay if no property changes at all: planned_delete_forgotten is the counterexample."
  },
  {
   "property": "C175",
   "status": "partial",
   "theorems": [
    "Pulumi.Plan.registrations_keep_to_the_plan_partial",
    "Pulumi.Plan.planned_deletions_are_not_registered",
    "Pulumi.Plan.planned_registrations_go_through",
    "Pulumi.Plan.own_goals_go_through",
    "Pulumi.Plan.unplanned_registrations_change_nothing",
    "Pulumi.Plan.options_not_planned",
    "Pulumi.Plan.more_secret_outputs_crash",
    "Pulumi.Plan.same_secret_outputs_refused",
    "Pulumi.Plan.unchanged_but_refused"
   ],
   "note": "replaceOnChanges and retainOnDelete are not in plans (options_not_planned); more secret outputs than planned crash the check (more_secret_outputs_crash); repeated ones are refused (same_secret_outputs_refused); an unchanged resource without a plan is refused if it has deleteBeforeReplace, ignoreChanges or an import id (unchanged_but_refused)."
  },
  {
   "property": "C176",
   "status": "proved",
   "theorems": [
    "Pulumi.Plan.previews_show_what_updates_do",
    "Pulumi.Plan.previews_show_whole_updates",
    "Pulumi.Plan.previews_show_more"
   ],
   "note": "previews_show_more shows that the converse fails."
  },
  {
   "property": "C177",
   "status": "partial",
   "theorems": [
    "Pulumi.Plan.own_plans_allow_updates_partial",
    "Pulumi.Plan.plan_allows_its_own_steps",
    "Pulumi.Plan.own_plan_refuses_dependents",
    "Pulumi.Plan.own_plan_refuses_aliases"
   ],
   "note": "Proved for programs without aliases where no dependent that is deleted ahead of a replacement is made again; own_plan_refuses_dependents and own_plan_refuses_aliases show that it is not so without."
  },
  {
   "property": "C178",
   "status": "partial",
   "theorems": [
    "Pulumi.Checkpoint.values_come_back_partial",
    "Pulumi.Checkpoint.kept_known",
    "Pulumi.Checkpoint.values_are_written",
    "Pulumi.Checkpoint.not_every_value_comes_back",
    "Pulumi.Checkpoint.known_outputs_are_lost",
    "Pulumi.Checkpoint.reserved_names_make_files_unreadable",
    "Pulumi.Checkpoint.loads_unique",
    "Pulumi.Checkpoint.json_faithful"
   ],
   "note": "Proved for all values without the reserved signature key and the placeholder string; for those, and for Outputs that are known, the code loses the value (not_every_value_comes_back, known_outputs_are_lost, reserved_names_make_files_unreadable)."
  },
  {
   "property": "C179",
   "status": "proved",
   "theorems": [
    "Pulumi.Checkpoint.secrets_are_not_told",
    "Pulumi.Checkpoint.each_secret_is_encrypted_once",
    "Pulumi.Checkpoint.the_rest_is_public",
    "Pulumi.Checkpoint.shown_secrets_are_told"
   ],
   "note": "For any encrypter; secrets_are_not_told for encrypters whose ciphertexts tell nothing."
  },
  {
   "property": "C180",
   "status": "proved",
   "theorems": [
    "Pulumi.Checkpoint.reading_after_bulk_decryption_is_reading",
    "Pulumi.Checkpoint.bulk_decryption_is_enough",
    "Pulumi.Checkpoint.not_every_file_is_decrypted_at_once",
    "Pulumi.Checkpoint.resources_are_decrypted_at_once"
   ],
   "note": "not_every_file_is_decrypted_at_once: a file edited by hand can hold ciphertexts that the collection misses; they are still decrypted."
  },
  {
   "property": "C181",
   "status": "proved",
   "theorems": [
    "Pulumi.Checkpoint.cached_ciphertexts_open",
    "Pulumi.Checkpoint.unchanged_secrets_keep_their_ciphertexts",
    "Pulumi.Checkpoint.writing_again_encrypts_nothing"
   ],
   "note": "The address of a secret in memory is a parameter; a secret does not change in place."
  },
  {
   "property": "C182",
   "status": "partial",
   "theorems": [
    "Pulumi.Checkpoint.states_come_back_partial",
    "Pulumi.Checkpoint.states_without_secrets_come_back_partial",
    "Pulumi.Checkpoint.secrets_need_a_manager"
   ],
   "note": "For properties without reserved names and strings, as in C178; the manifest is left out."
  },
  {
   "property": "C183",
   "status": "proved",
   "theorems": [
    "Pulumi.Checkpoint.old_files_are_read",
    "Pulumi.Checkpoint.oldest_files_are_read",
    "Pulumi.Checkpoint.only_known_versions_are_read",
    "Pulumi.Checkpoint.what_is_read_is_sound"
   ],
   "note": "The JSON of the old types is a parameter."
  },
  {
   "property": "C184",
   "status": "partial",
   "theorems": [
    "Pulumi.ConfigMap.set_then_get",
    "Pulumi.ConfigMap.set_object_then_get",
    "Pulumi.ConfigMap.plus_is_lost",
    "Pulumi.ConfigMap.set_succeeds",
    "Pulumi.ConfigMap.not_a_path",
    "Pulumi.ConfigMap.path_without_a_name"
   ],
   "note": "Proved for every configuration, path and value. Missing: a whole number with a plus sign or minus zero is read as the number (plus_is_lost); floats are not modelled."
  },
  {
   "property": "C185",
   "status": "partial",
   "theorems": [
    "Pulumi.ConfigMap.set_changes_nothing_else",
    "Pulumi.ConfigMap.what_contains_is_an_object",
    "Pulumi.ConfigMap.plain_set_hides_the_secret",
    "Pulumi.ConfigMap.setting_below_a_secret_unwraps_it",
    "Pulumi.ConfigMap.setting_below_a_value_discards_it"
   ],
   "note": "Frame proved for all keys elsewhere. It fails for what contains the key: an object with a secret passes for a plain one in memory until it is saved, and a secret below which something is set is unwrapped or discarded."
  },
  {
   "property": "C186",
   "status": "partial",
   "theorems": [
    "Pulumi.ConfigMap.removed_is_gone",
    "Pulumi.ConfigMap.remove_changes_nothing_else",
    "Pulumi.ConfigMap.removed_elements_close_up",
    "Pulumi.ConfigMap.removed_elements_change_nothing_else",
    "Pulumi.ConfigMap.removing_below_a_secret_unwraps_it"
   ],
   "note": "Proved for all paths. Removing what is below a secret at the top, which is not there, makes the secret a plain value."
  },
  {
   "property": "C187",
   "status": "partial",
   "theorems": [
    "Pulumi.ConfigMap.key_round_trips_iff",
    "Pulumi.ConfigMap.old_keys_are_read",
    "Pulumi.ConfigMap.value_round_trips",
    "Pulumi.ConfigMap.saving_finds_the_secrets",
    "Pulumi.ConfigMap.map_round_trips",
    "Pulumi.ConfigMap.colons_break_keys"
   ],
   "note": "Proved for keys without colons, which is necessary; keys with colons can be set by a path and make the file unreadable. YAML is not modelled, JSON is."
  },
  {
   "property": "C188",
   "status": "partial",
   "theorems": [
    "Pulumi.ConfigMap.secrets_are_decrypted",
    "Pulumi.ConfigMap.the_rest_is_kept",
    "Pulumi.ConfigMap.the_shape_is_kept",
    "Pulumi.ConfigMap.copied_values_read_the_same",
    "Pulumi.ConfigMap.copied_configuration_decrypts_the_same",
    "Pulumi.ConfigMap.plain_configuration_needs_no_key",
    "Pulumi.ConfigMap.hidden_secrets_are_not_reencrypted"
   ],
   "note": "Proved for all depths and crypters. An object whose secret was hidden by a plain set (C185) is copied with the old ciphertext."
  },
  {
   "property": "C189",
   "status": "partial",
   "theorems": [
    "Pulumi.Filestate.lock_excludes_partial",
    "Pulumi.Filestate.lock_serializes_partial",
    "Pulumi.Filestate.lock_keeps",
    "Pulumi.Filestate.concurrent_updates_safe_partial",
    "Pulumi.Filestate.stale_lock_blocks",
    "Pulumi.Filestate.cancel_deletes",
    "Pulumi.Filestate.cancel_only",
    "Pulumi.Filestate.cancel_breaks_exclusion",
    "Pulumi.Filestate.both_give_up",
    "Pulumi.Filestate.cancel_stops_early"
   ],
   "note": "For every schedule, crash and fault without pulumi cancel: mutual exclusion, serialisation, and what every command keeps holds under concurrency. Missing: cancel deletes the locks of running processes, so that two run (cancel_breaks_exclusion), and stops early with success (cancel_stops_early); two that start together may both give up (both_give_up). Watch and the new name of a rename are not locked by the code."
  },
  {
   "property": "C190",
   "status": "partial",
   "theorems": [
    "Pulumi.Filestate.save_atomic_partial",
    "Pulumi.Filestate.save_durable",
    "Pulumi.Filestate.save_completes",
    "Pulumi.Filestate.save_backup",
    "Pulumi.Filestate.save_frame",
    "Pulumi.Filestate.save_read",
    "Pulumi.Filestate.switching_not_atomic",
    "Pulumi.Filestate.switching_loses",
    "Pulumi.Filestate.switching_stale"
   ],
   "note": "Proved for a bucket without a state file of the other compression, with all crashes and faults; for the other case without faults only that the state is in the file or its backup. The full claim is false when the setting for compression changed: switching_not_atomic, switching_loses, switching_stale."
  },
  {
   "property": "C191",
   "status": "partial",
   "theorems": [
    "Pulumi.Filestate.create_exists",
    "Pulumi.Filestate.create_new",
    "Pulumi.Filestate.create_frame",
    "Pulumi.Filestate.create_overwrites_unreadable",
    "Pulumi.Filestate.create_overwrites_on_error"
   ],
   "note": "Proved for readable stacks without faults; false for stacks that cannot be read and if reading fails (create_overwrites_unreadable, create_overwrites_on_error)."
  },
  {
   "property": "C192",
   "status": "partial",
   "theorems": [
    "Pulumi.Filestate.remove_refuses",
    "Pulumi.Filestate.remove_removes",
    "Pulumi.Filestate.remove_frame",
    "Pulumi.Filestate.remove_reports_success",
    "Pulumi.Filestate.remove_uncovers"
   ],
   "note": "Refusal proved with all faults and crashes, removal without faults for one state file. False if deleting fails, or with two state files: remove_reports_success, remove_uncovers."
  },
  {
   "property": "C193",
   "status": "partial",
   "theorems": [
    "Pulumi.Filestate.rename_keeps_partial",
    "Pulumi.Filestate.rename_refuses_partial",
    "Pulumi.Filestate.rename_completes",
    "Pulumi.Filestate.renameHistory_keeps",
    "Pulumi.Filestate.renameHistory_moves",
    "Pulumi.Filestate.rename_overwrites",
    "Pulumi.Filestate.rename_doubles"
   ],
   "note": "Proved with all faults and crashes for stacks of one compression; a compressed stack of the new name is overwritten if a listing fails (rename_overwrites), and a failing deletion leaves both names (rename_doubles)."
  },
  {
   "property": "C194",
   "status": "partial",
   "theorems": [
    "Pulumi.Filestate.update_kept_partial",
    "Pulumi.Filestate.update_history_partial",
    "Pulumi.Filestate.update_never_lost_partial",
    "Pulumi.Filestate.concurrent_updates_safe_partial",
    "Pulumi.Filestate.switching_not_atomic"
   ],
   "note": "With all faults, crashes and engines, and under the lock for all schedules (concurrent_updates_safe_partial), for a bucket without a state file of the other compression; for one with both the claim is false, as saving is not atomic then (switching_not_atomic of C190)."
  },
  {
   "property": "C195",
   "status": "proved",
   "theorems": [
    "Pulumi.Filestate.pages_all",
    "Pulumi.Filestate.page_length",
    "Pulumi.Filestate.pages_sorted"
   ],
   "note": "The listing is taken to be in the order of names, in which times of the same length are in order."
  },
  {
   "property": "C196",
   "status": "partial",
   "theorems": [
    "Pulumi.Filestate.path_inj_partial",
    "Pulumi.Filestate.lockPath_inj_partial",
    "Pulumi.Filestate.localStacks_exact_partial",
    "Pulumi.Filestate.historyDir_exact_partial",
    "Pulumi.Filestate.movedName_exact_partial",
    "Pulumi.Filestate.stackPath_picks",
    "Pulumi.Filestate.dots_not_listed",
    "Pulumi.Filestate.dots_collide",
    "Pulumi.Filestate.listed_twice"
   ],
   "note": "Proved for all valid names but \".\" and \"..\", for which it is false (dots_not_listed, dots_collide). A stack with two state files is listed twice (listed_twice)."
  },
  {
   "property": "C197",
   "status": "partial",
   "theorems": [
    "Pulumi.Plugins.install_excludes_partial",
    "Pulumi.Plugins.has_plugin_is_complete_partial",
    "Pulumi.Plugins.installed_stays_partial",
    "Pulumi.Plugins.install_can_complete",
    "Pulumi.Plugins.reinstall_breaks_plugin",
    "Pulumi.Plugins.delete_breaks_plugin",
    "Pulumi.Plugins.delete_breaks_lock"
   ],
   "note": "Proved for installations; missing are installing anew and deleting, for which it is false: both remove the directory before it is marked, and deleting removes the lock file while it may be locked."
  },
  {
   "property": "C198",
   "status": "partial",
   "theorems": [
    "Pulumi.Plugins.select_finds",
    "Pulumi.Plugins.select_newest",
    "Pulumi.Plugins.select_deterministic",
    "Pulumi.Plugins.newest_without_version",
    "Pulumi.Plugins.old_search_prefers_older",
    "Pulumi.Plugins.newest_with_version_partial"
   ],
   "note": "Proved for SelectCompatiblePlugin, and for the older search without a version. False for the older search with a version: an older plugin that comes later in the list replaces a newer one."
  },
  {
   "property": "C199",
   "status": "partial",
   "theorems": [
    "Pulumi.Plugins.dedup_exact",
    "Pulumi.Plugins.defaults_exact",
    "Pulumi.Plugins.defaults_deterministic",
    "Pulumi.Plugins.default_source",
    "Pulumi.Plugins.sets_forget_kinds",
    "Pulumi.Plugins.dedup_forgets_kinds"
   ],
   "note": "Proved for sets as they are; keys of sets leave out the kind, so that of two plugins of different kinds one is forgotten."
  },
  {
   "property": "C200",
   "status": "partial",
   "theorems": [
    "Pulumi.Providers.migrate_keeps",
    "Pulumi.Providers.migrate_new",
    "Pulumi.Providers.migrate_idempotent",
    "Pulumi.Providers.migrate_intact_partial",
    "Pulumi.Providers.map_built_iff",
    "Pulumi.Providers.migrate_duplicates",
    "Pulumi.Providers.migrate_panics"
   ],
   "note": "Proved for all lists, configurations and manifests. Partial because the code violates it: a checkpoint that has the default provider and a resource without one gets a duplicate, and a manifest plugin without version crashes the deployment (both proved)."
  },
  {
   "property": "C201",
   "status": "partial",
   "theorems": [
    "Pulumi.Providers.default_name_legal",
    "Pulumi.Providers.keys_separate_partial",
    "Pulumi.Providers.names_separate_partial",
    "Pulumi.Providers.denied_iff_off",
    "Pulumi.Providers.same_default_provider",
    "Pulumi.Providers.registered_as_requested",
    "Pulumi.Providers.denied_reference",
    "Pulumi.Providers.own_default_provider_partial",
    "Pulumi.Providers.never_panics",
    "Pulumi.Providers.two_versions_one_name",
    "Pulumi.Providers.two_urls_one_name",
    "Pulumi.Providers.wrong_default_provider",
    "Pulumi.Providers.slashes_of_urls",
    "Pulumi.Providers.let_through_iff"
   ],
   "note": "Proved for all sequences of requests and replies. Partial because the code violates it: keys are ambiguous for URLs without scheme and packages with dots, and different versions or URLs can have the same name and so URN (proved)."
  },
  {
   "property": "C202",
   "status": "partial",
   "theorems": [
    "Pulumi.Providers.registry_refines_partial",
    "Pulumi.Providers.registry_never_stuck_partial",
    "Pulumi.Providers.newReg_succeeds",
    "Pulumi.Providers.newReg_loads",
    "Pulumi.Providers.diff_by_former_name_closes",
    "Pulumi.Providers.update_leaves_plugin_open"
   ],
   "note": "Proved for all sequences of calls the engine may make one after the other. Partial because the code violates it for providers found under former names (Diff closes a plugin in use, proved), and because calls are modelled as atomic although Same and RegisterAlias write without the exclusive lock."
  },
  {
   "property": "C203",
   "status": "partial",
   "theorems": [
    "Pulumi.Plan.plans_come_back_partial",
    "Pulumi.Plan.saved_plan_allows_the_same_partial",
    "Pulumi.Plan.plan_secrets_are_not_told",
    "Pulumi.Plan.saved_plan_is_laxer"
   ],
   "note": "Proved for values that can be stored and plans that expect no Outputs: an Output is an unknown value in the file, so that the plan that is read allows more (saved_plan_is_laxer). The manifest and the configuration of the plan are left out; a nil map and an empty one are the same."
  },
  {
   "property": "C204",
   "status": "partial",
   "theorems": [
    "Pulumi.Import.import_keeps_and_adds",
    "Pulumi.Import.import_complete",
    "Pulumi.Import.made_is_saved",
    "Pulumi.Import.import_intact_partial",
    "Pulumi.Import.asked_properties_partial",
    "Pulumi.Import.properties_of_another",
    "Pulumi.Import.properties_forgotten",
    "Pulumi.Import.import_below_nothing",
    "Pulumi.Import.import_again_fails",
    "Pulumi.Import.not_a_provider_panics"
   ],
   "note": "Proved: import_keeps_and_adds (what is there is kept, everything else is one of three things), import_complete, made_is_saved; import_intact_partial if URNs and types fit together and no import names a stack as its parent that there is not; asked_properties_partial if the IDs differ and the provider gives the ID back. What does not hold without that is shown by properties_of_another, properties_forgotten, import_below_nothing, import_again_fails and not_a_provider_panics. Previews of imports are not modelled."
  },
  {
   "property": "C205",
   "status": "proved",
   "theorems": [
    "Pulumi.Secrets.decrypt_encrypt",
    "Pulumi.Secrets.decrypts_only_own",
    "Pulumi.Secrets.decrypts_only_values",
    "Pulumi.Secrets.bad_nonce_panics"
   ],
   "note": "decrypt_encrypt, decrypts_only_own and decrypts_only_values over a model of base 64 that is proved to round-trip; that the cipher opens what it has closed, and with no other key, are hypotheses about AES-GCM. Beside the claim: a nonce of another length in a value written by hand ends the process (bad_nonce_panics)."
  },
  {
   "property": "C206",
   "status": "proved",
   "theorems": [
    "Pulumi.Secrets.right_and_wrong",
    "Pulumi.Secrets.managers_have_the_key",
    "Pulumi.Secrets.managers_agree",
    "Pulumi.Secrets.locked",
    "Pulumi.Secrets.new_passphrase",
    "Pulumi.Secrets.first_right_passphrase",
    "Pulumi.Secrets.where_from",
    "Pulumi.Secrets.typed_twice",
    "Pulumi.Secrets.replaced_at_terminal",
    "Pulumi.Secrets.wrong_passphrase_locks",
    "Pulumi.Secrets.opened_once"
   ],
   "note": "right_and_wrong, managers_have_the_key and managers_agree for all histories of calls; locked, new_passphrase, first_right_passphrase, where_from, typed_twice, replaced_at_terminal, wrong_passphrase_locks. opened_once shows what the exception in the claim is: a state that has been opened once in a process opens with every passphrase."
  },
  {
   "property": "C207",
   "status": "partial",
   "theorems": [
    "Pulumi.Secrets.changed",
    "Pulumi.Secrets.checkpoint_stays_readable",
    "Pulumi.Secrets.secrets_stranded",
    "Pulumi.Secrets.one_bad_value"
   ],
   "note": "Proved if the command ends well (changed), and for the checkpoint wherever it stops (checkpoint_stays_readable). For the configuration it is false: the new salt is saved before the secrets are encrypted anew (secrets_stranded), and a single value that cannot be decrypted makes the command fail there (one_bad_value). The configuration is flat in the model, and only the passphrase provider is modelled."
  },
  {
   "property": "C208",
   "status": "proved",
   "theorems": [
    "Pulumi.Service.given_is_fresh",
    "Pulumi.Service.lease_has_not_run_out",
    "Pulumi.Service.newest_token",
    "Pulumi.Service.renewed_when_stale",
    "Pulumi.Service.failed_for_good",
    "Pulumi.Service.every_request_answered"
   ],
   "note": "The loop of the token source is modelled round by round, with the times and the answers of the service as inputs; the ticker's period and the transport are not modelled."
  },
  {
   "property": "C209",
   "status": "proved",
   "theorems": [
    "Pulumi.Service.done_means_recorded",
    "Pulumi.Service.recorded_once",
    "Pulumi.Service.numbers_are_unique",
    "Pulumi.Service.requests_are_bounded",
    "Pulumi.Service.never_stuck",
    "Pulumi.Service.comes_to_an_end",
    "Pulumi.Service.done_needs_cancel"
   ],
   "note": "A transition system with the loop and the goroutines, in any interleaving. A request that the service refuses is only logged in the code, so what is proved is what the service was asked to record. The property is for streams with a CancelEvent; without one done_needs_cancel proves that done is never closed."
  },
  {
   "property": "C210",
   "status": "partial",
   "theorems": [
    "Pulumi.Display.no_secret_is_left",
    "Pulumi.Display.others_are_unchanged",
    "Pulumi.Display.only_secrets_are_replaced",
    "Pulumi.Display.short_secrets_are_shown",
    "Pulumi.Display.longer_secret_shown_in_part",
    "Pulumi.Display.overlapping_secret_shown_in_part",
    "Pulumi.Display.brackets_matter",
    "Pulumi.Display.byteLen_is_utf8"
   ],
   "note": "Proved for secrets of at least three bytes without square brackets that are not a part of the word secret: none is left. Not true in full: short secrets are left (meant), and of a secret that begins like another or overlaps with it the rest is left, depending on the order of a Go map. The replacer of Go's library is modelled by its documentation."
  },
  {
   "property": "C211",
   "status": "partial",
   "theorems": [
    "Pulumi.Display.events_tell_nothing_of_secrets",
    "Pulumi.Display.config_secrets_are_not_in_events",
    "Pulumi.Display.shapes_kept_kvs",
    "Pulumi.Display.keys_and_paths_are_shown",
    "Pulumi.Display.secret_outputs_are_shown"
   ],
   "note": "Proved for secret values and for texts. Not true in full: keys of objects and paths of assets are not filtered, and an output marked as secret is taken for an unknown one and its value is kept unmarked in the engine's event."
  },
  {
   "property": "C212",
   "status": "proved",
   "theorems": [
    "Pulumi.Display.delivered_in_order",
    "Pulumi.Display.close_delivers_all",
    "Pulumi.Display.nothing_dropped_before_close",
    "Pulumi.Display.senders_never_wait",
    "Pulumi.Display.close_returns",
    "Pulumi.Display.no_more_after_close"
   ],
   "note": "A transition system of senders, queue and receiver in any interleaving; the receiver's channel is open."
  },
  {
   "property": "C213",
   "status": "proved",
   "theorems": [
    "Pulumi.Display.nothing_without_consent",
    "Pulumi.Display.refused_without_terminal",
    "Pulumi.Display.preview_first",
    "Pulumi.Display.held_to_the_plan",
    "Pulumi.Display.previews_change_nothing",
    "Pulumi.Display.success_is_real"
   ],
   "note": "The engine is a parameter that may do anything, also change the plan it is given. Locks and what is displayed are left out."
  },
  {
   "property": "C214",
   "status": "proved",
   "theorems": [
    "Pulumi.Policy.level_of_policy",
    "Pulumi.Policy.property_of_policy",
    "Pulumi.Policy.accepted_iff",
    "Pulumi.Policy.used_properties_are_valid",
    "Pulumi.Policy.refused_with_all_complaints",
    "Pulumi.Policy.names_of_config",
    "Pulumi.Policy.other_names_do_not_matter",
    "Pulumi.Policy.order_does_not_matter",
    "Pulumi.Policy.misspelt_policy_is_accepted",
    "Pulumi.Policy.all_overrides_the_packs_own",
    "Pulumi.Policy.disabled_policy_is_validated"
   ],
   "note": ""
  },
  {
   "property": "C215",
   "status": "partial",
   "theorems": [
    "Pulumi.Policy.file_accepted_iff",
    "Pulumi.Policy.file_read",
    "Pulumi.Policy.file_levels",
    "Pulumi.Policy.api_accepted_iff",
    "Pulumi.Policy.api_and_file_agree",
    "Pulumi.Policy.packs_are_configured",
    "Pulumi.Policy.bad_configuration_stops",
    "Pulumi.Policy.nothing_else_is_sent",
    "Pulumi.Policy.unsupported_file_stops",
    "Pulumi.Policy.required_configuration_is_dropped",
    "Pulumi.Policy.properties_of_all_stop_the_update",
    "Pulumi.Policy.unknown_policy_with_properties",
    "Pulumi.Policy.bare_level_is_refused_from_the_service"
   ],
   "note": "Violated: what the service configures of a pack that cannot be configured is dropped without a word (required_configuration_is_dropped). Everything else is proved."
  },
  {
   "property": "C216",
   "status": "partial",
   "theorems": [
    "Pulumi.Policy.Enforce.update_steps_only_what_complies",
    "Pulumi.Policy.Enforce.preview_steps_all",
    "Pulumi.Policy.Enforce.succeeds_iff",
    "Pulumi.Policy.Enforce.preview_tells_of_update",
    "Pulumi.Policy.Enforce.advisory_violations_do_not_matter",
    "Pulumi.Policy.Enforce.all_violations_are_reported",
    "Pulumi.Policy.Enforce.stopping_violation_is_reported",
    "Pulumi.Policy.Enforce.stack_violation_comes_too_late",
    "Pulumi.Policy.Enforce.failed_step_skips_stack_policies"
   ],
   "note": "Violated for policies about the stack: they are looked at after all steps (stack_violation_comes_too_late). Everything else is proved."
  },
  {
   "property": "C217",
   "status": "partial",
   "theorems": [
    "Pulumi.Service.Retry.retries",
    "Pulumi.Service.Retry.waits_are_bounded",
    "Pulumi.Service.Retry.others_are_sent_once",
    "Pulumi.Service.Retry.calls_are_sent_at_most_four_times",
    "Pulumi.Service.Retry.call_succeeds_iff",
    "Pulumi.Service.Retry.error_text_has_status",
    "Pulumi.Service.Retry.first_wait_is_not_the_delay",
    "Pulumi.Service.Retry.error_without_code_loses_status",
    "Pulumi.Service.Retry.waits_grow"
   ],
   "note": "Violated: the first wait is twice the delay (first_wait_is_not_the_delay), and an error response that is JSON without a code loses its status (error_without_code_loses_status). Everything else is proved."
  },
  {
   "property": "C218",
   "status": "proved",
   "theorems": [
    "Pulumi.Workers.in_order",
    "Pulumi.Workers.begun_once",
    "Pulumi.Workers.begins_after_those_before",
    "Pulumi.Workers.at_most_workers",
    "Pulumi.Workers.workersOf_spec",
    "Pulumi.Workers.closed_why",
    "Pulumi.Workers.all_carried_out",
    "Pulumi.Workers.errored_iff",
    "Pulumi.Workers.progress",
    "Pulumi.Workers.ends"
   ],
   "note": "transition system over all interleavings of the workers, the submission and a cancellation; what a step does is left open"
  },
  {
   "property": "C219",
   "status": "partial",
   "theorems": [
    "Pulumi.Workers.after_cancel",
    "Pulumi.Workers.after_cancel_total",
    "Pulumi.Workers.failure_cancels",
    "Pulumi.Workers.awaited_first",
    "Pulumi.Workers.continues",
    "Pulumi.Workers.begins_after_cancel"
   ],
   "note": "the code tests for the cancellation and then begins the step, so that a step can begin after it: begins_after_cancel. Proved: at most one per chain and no more than there are workers, and the awaiting of one set of steps before the next holds in full"
  },
  {
   "property": "C220",
   "status": "proved",
   "theorems": [
    "Pulumi.Steps.preview_changes_nothing",
    "Pulumi.Steps.delete_asks",
    "Pulumi.Steps.protected_kept",
    "Pulumi.Steps.asks_once",
    "Pulumi.Steps.components_ask_nothing",
    "Pulumi.Steps.delete_outcome",
    "Pulumi.Steps.read_outcome"
   ],
   "note": "all steps but imports (C204); what the provider answers is left open"
  },
  {
   "property": "C221",
   "status": "proved",
   "theorems": [
    "Pulumi.Steps.same_keeps",
    "Pulumi.Steps.created",
    "Pulumi.Steps.created_has_id",
    "Pulumi.Steps.replaced_marked",
    "Pulumi.Steps.read_marked",
    "Pulumi.Steps.update_keeps_id",
    "Pulumi.Steps.read_exists",
    "Pulumi.Steps.refresh_keeps",
    "Pulumi.Steps.refresh_drops_iff",
    "Pulumi.Steps.refresh_unhealthy",
    "Pulumi.Steps.partial_update",
    "Pulumi.Steps.updated",
    "Pulumi.Steps.failure_passed",
    "Pulumi.Steps.refreshed",
    "Pulumi.Steps.old_kept",
    "Pulumi.Steps.new_urn"
   ],
   "note": "states are values: sharing of property maps between old and new states is not modelled"
  },
  {
   "property": "C222",
   "status": "partial",
   "theorems": [
    "Pulumi.Steps.markAll_eq",
    "Pulumi.Steps.pre_failed",
    "Pulumi.Steps.began_first",
    "Pulumi.Steps.told_after_recorded",
    "Pulumi.Steps.recorded_spec",
    "Pulumi.Steps.recorded_secret",
    "Pulumi.Steps.registered_outputs",
    "Pulumi.Steps.registered_not_secret",
    "Pulumi.Steps.twice_is_forgotten",
    "Pulumi.Steps.terminated_writes_nothing",
    "Pulumi.Steps.twice_not",
    "Pulumi.Steps.twice_refused"
   ],
   "note": "outputs that a program registers later replace all and are not made secret though named: registered_not_secret; proved for the outputs a step gives. A terminated update tells the program without writing, as intended"
  },
  {
   "property": "C223",
   "status": "partial",
   "theorems": [
    "Pulumi.Builtin.contains_iff",
    "Pulumi.Builtin.secret_names",
    "Pulumi.Builtin.secret_names_unique",
    "Pulumi.Builtin.secret_names_order",
    "Pulumi.Builtin.create_iff",
    "Pulumi.Builtin.create_no_crash",
    "Pulumi.Builtin.create_unknown",
    "Pulumi.Builtin.read_iff",
    "Pulumi.Builtin.check_accepts_iff",
    "Pulumi.Builtin.check_refuses",
    "Pulumi.Builtin.check_type",
    "Pulumi.Builtin.accepted_crash_iff",
    "Pulumi.Builtin.unknown_name_ends_the_engine",
    "Pulumi.Builtin.diff_iff",
    "Pulumi.Builtin.diff_unknown",
    "Pulumi.Builtin.resource_outputs",
    "Pulumi.Builtin.new_stack_ends_the_engine",
    "Pulumi.Builtin.get_resource_iff",
    "Pulumi.Builtin.get_resource_unknown",
    "Pulumi.Builtin.bad_argument_ends_the_engine",
    "Pulumi.Builtin.invoke_unknown",
    "Pulumi.Builtin.read_outputs_as_create",
    "Pulumi.Builtin.create_names"
   ],
   "note": "All but the last sentence is proved. The last is false, and its negation is proved: a name not known yet is accepted and then fails an assertion when the reference is created, also in a preview (unknown_name_ends_the_engine; accepted_crash_iff shows it is the only such case); asking for the resources of a stack never updated dereferences a nil snapshot; a call of one of the three functions without its string argument fails an assertion."
  },
  {
   "property": "C224",
   "status": "partial",
   "theorems": [
    "Pulumi.Detailed.displayed_from_entries",
    "Pulumi.Detailed.displayed_iff",
    "Pulumi.Detailed.nothing_lost",
    "Pulumi.Detailed.order_irrelevant",
    "Pulumi.Detailed.entries_commute",
    "Pulumi.Detailed.shows_meaning",
    "Pulumi.Detailed.has_meaning",
    "Pulumi.Detailed.shows_only",
    "Pulumi.Detailed.shows_kept",
    "Pulumi.Detailed.translated",
    "Pulumi.Detailed.empty_path_ends_the_program",
    "Pulumi.Detailed.index_paths_not_shown",
    "Pulumi.Detailed.overlap_depends_on_order",
    "Pulumi.Detailed.mixed_depends_on_order",
    "Pulumi.Detailed.property_of"
   ],
   "note": "Proved: everything shown comes of an entry, for every diff (displayed_from_entries); and for entries whose paths are apart (none is part of the way to another) and which are all of inputs or all of outputs, exactly what they mean is shown, none is lost and the order does not matter. The full claim is false without these conditions, and its negation is proved: overlapping paths and mixtures of input and output entries depend on the order; paths that begin with an index are not shown; an empty path ends the program."
  },
  {
   "property": "C225",
   "status": "partial",
   "theorems": [
    "Pulumi.Verdict.success_iff",
    "Pulumi.Verdict.success_saw_the_end",
    "Pulumi.Verdict.failure_fails",
    "Pulumi.Verdict.failure_reported",
    "Pulumi.Verdict.passed_on",
    "Pulumi.Verdict.pending_warned",
    "Pulumi.Verdict.canceled_deletes_succeed",
    "Pulumi.Verdict.failed_step_blames_the_plan",
    "Pulumi.Verdict.canceled_blames_the_target",
    "Pulumi.Verdict.plain_reports"
   ],
   "note": "Proved: the exact condition of success over every list of observations of the main loop, that success has seen the program to its end, that failures and a cancellation the loop sees never succeed, that no failure is silent, when pending operations are warned of, and what is reported where targets and plan are in order. False of the code, with the negations proved: a cancellation during the deletions that follow the program (all of a destroy) is not noticed, the remaining deletions are left out and the result is a success; after a failed step with a plan, what is left of the plan is reported in place of the failure; after a cancellation, targets yet to be created are reported missing in place of the cancellation."
  },
  {
   "property": "C226",
   "status": "partial",
   "theorems": [
    "Pulumi.Interrupt.untouched",
    "Pulumi.Interrupt.one_interrupt_is_safe",
    "Pulumi.Interrupt.early_end_needs_two",
    "Pulumi.Interrupt.interrupts_work",
    "Pulumi.Interrupt.interrupt_received",
    "Pulumi.Interrupt.written_is_a_prefix",
    "Pulumi.Interrupt.never_shown",
    "Pulumi.Interrupt.terminated_loses_steps",
    "Pulumi.Interrupt.interrupt_lost",
    "Pulumi.Interrupt.ending_depends"
   ],
   "note": "Proved over every run of the transition system, with any result type: one interrupt is safe, an early return needs two, interrupts acted upon can always cancel and terminate, what is written is a prefix of what completed. That a canceled deployment starts nothing more is C219. False of the code, with the negations proved: the messages are built and never sent, so that no run shows any; an interrupt that comes while an earlier one is acted upon is lost (the channel has no room); a step that completes after the second interrupt is not written, as the code means; and what a terminated update ends with depends on which of two ready cases select takes."
  },
  {
   "property": "C227",
   "status": "partial",
   "theorems": [
    "Pulumi.CloudRef.full_name",
    "Pulumi.CloudRef.owner_and_name",
    "Pulumi.CloudRef.bare_name",
    "Pulumi.CloudRef.too_many_parts",
    "Pulumi.CloudRef.accepted_is_legal",
    "Pulumi.CloudRef.shown_is_read_back",
    "Pulumi.CloudRef.shown_injective",
    "Pulumi.CloudRef.shown_in_full",
    "Pulumi.CloudRef.shown_bare",
    "Pulumi.CloudRef.shown_is_refused",
    "Pulumi.CloudRef.empty_parts",
    "Pulumi.CloudRef.owner_unchecked"
   ],
   "note": "Proved: how names of one, two, three and more parts are read, that only legal names are accepted, and that what is shown is read back, is different for different stacks, and leaves out what it may and no more, wherever the default organization can be told. False of the code, with the negations proved: where the default organization cannot be read the name shown is refused when read; empty parts are read as left out (`//dev` as `dev`); nothing is asked of the owner and project."
  },
  {
   "property": "C228",
   "status": "partial",
   "theorems": [
    "Pulumi.OpLogs.logs_put_together",
    "Pulumi.OpLogs.messages_whatever_the_order",
    "Pulumi.OpLogs.same_time_keeps_order",
    "Pulumi.OpLogs.failures_given",
    "Pulumi.OpLogs.other_resources_lost",
    "Pulumi.OpLogs.depends_on_order",
    "Pulumi.OpLogs.unsorted_beside_errors"
   ],
   "note": "Proved: order, absence of duplicates, that everything is a child's and every message of a child is there at its time, that which messages are there does not depend on the order of answers, that what has one time keeps its order, and what is given beside failures. False of the code, with the negations proved: entries of different resources with the same time and message are taken for duplicates, so that all but one are lost, and which is left depends on the order of answers; beside an error the logs are neither sorted nor freed of duplicates."
  }
 ]
}
