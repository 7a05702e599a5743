{
 "claims": [
  {
   "property": "C01",
   "status": "partial",
   "theorems": [
    "Dctl.C01_identity_partial",
    "Dctl.C01_identity_no_floats",
    "Dctl.C01_field_order",
    "Dctl.C01_large_float_collision"
   ],
   "note": "Exact for documents whose floats print exactly (in particular without floats); large floats may share the text of another integer (witness)."
  },
  {
   "property": "C02",
   "status": "proved",
   "theorems": [
    "Dctl.ZSet.C02_canonical",
    "Dctl.ZSet.C02_multiplicities",
    "Dctl.ZSet.C02_isZero",
    "Dctl.ZSet.C02_representation",
    "Dctl.ZSet.C02_group"
   ],
   "note": "All Z-sets built by any sequence of operations."
  },
  {
   "property": "C03",
   "status": "proved",
   "theorems": [
    "Dctl.ZSet.C03_distinct",
    "Dctl.ZSet.C03_unique",
    "Dctl.ZSet.C03_distinct_idem",
    "Dctl.ZSet.C03_documents",
    "Dctl.ZSet.C03_unique_documents",
    "Dctl.ZSet.C03_list",
    "Dctl.ZSet.C03_from_documents"
   ],
   "note": ""
  },
  {
   "property": "C04",
   "status": "proved",
   "theorems": [
    "Dctl.C04_image",
    "Dctl.C04_additive",
    "Dctl.C04_incremental",
    "Dctl.C04_total"
   ],
   "note": "All deterministic evaluators."
  },
  {
   "property": "C05",
   "status": "proved",
   "theorems": [
    "Dctl.C05_incremental_join",
    "Dctl.C05_failed_step",
    "Dctl.C05_failures",
    "Dctl.C05_arity"
   ],
   "note": "n at least 1 (guaranteed by spec validation)."
  },
  {
   "property": "C06",
   "status": "proved",
   "theorems": [
    "Dctl.C06_incremental_binary_join"
   ],
   "note": ""
  },
  {
   "property": "C07",
   "status": "proved",
   "theorems": [
    "Dctl.C07_integrate",
    "Dctl.C07_diff_integ",
    "Dctl.C07_integ_diff",
    "Dctl.C07_delay"
   ],
   "note": ""
  },
  {
   "property": "C08",
   "status": "proved",
   "theorems": [
    "Dctl.C08_gather_incremental",
    "Dctl.C08_gather_unique",
    "Dctl.C08_retractions",
    "Dctl.C08_negative_order"
   ],
   "note": "The incremental claim for collections without negative multiplicities; what a single gather does with retractions is C08_retractions, and with negative multiplicities the result depends on the map order (C08_negative_order). The result is unique if value sorting and aggregation are deterministic."
  },
  {
   "property": "C09",
   "status": "proved",
   "theorems": [
    "Dctl.C09_select_projections",
    "Dctl.C09_project_select",
    "Dctl.C09_fused_succeeds",
    "Dctl.C09_fused_stricter",
    "Dctl.C09_fused_runs"
   ],
   "note": "A successful fused run equals the sequential run; C09_fused_stricter shows fused may fail where sequential does not when a projection yields not exactly one document."
  },
  {
   "property": "C10",
   "status": "proved",
   "theorems": [
    "Dctl.C10_accepted_iff",
    "Dctl.C10_optimizer_succeeds",
    "Dctl.C10_optimizer_preserves",
    "Dctl.C10_join_rule",
    "Dctl.C10_binary_join_rule",
    "Dctl.C10_limit_reachable_by_hand",
    "Dctl.C10_distinct_rule",
    "Dctl.C10_lift_rule"
   ],
   "note": "Pipelines of any length; hand-built graphs may hit the iteration limit."
  },
  {
   "property": "C11",
   "status": "proved",
   "theorems": [
    "Dctl.C11_incremental_correct",
    "Dctl.C11_never_fails",
    "Dctl.C11_history_independent"
   ],
   "note": "Deterministic evaluators (no @now/@rnd)."
  },
  {
   "property": "C12",
   "status": "partial",
   "theorems": [
    "Dctl.C12_bad_inputs_rejected",
    "Dctl.C12_exact_inputs_accepted_partial",
    "Dctl.C12_same_kind_rejected",
    "Dctl.C05_arity"
   ],
   "note": "Fails for two sources of the same kind (witness)."
  },
  {
   "property": "C13",
   "status": "partial",
   "theorems": [
    "Dctl.C13_reset_partial",
    "Dctl.C13_reset_keeps_join_state"
   ],
   "note": "False for n-ary incremental joins (witness), proved for all other executors."
  },
  {
   "property": "C14",
   "status": "partial",
   "theorems": [
    "Dctl.C14_snapshot_exists_partial",
    "Dctl.C14_snapshot_correct_partial",
    "Dctl.C14_gather_has_no_snapshot",
    "Dctl.C14_unwind_has_no_snapshot",
    "Dctl.C14_back",
    "Dctl.C14_back_binary"
   ],
   "note": "False for gather and unwind (witnesses); exact characterisation and correctness for the rest."
  },
  {
   "property": "C15",
   "status": "proved",
   "theorems": [
    "Dctl.C15_source_record"
   ],
   "note": "After any history the pipeline's source record holds exactly the last live version of each object."
  },
  {
   "property": "C16",
   "status": "partial",
   "theorems": [
    "Dctl.C16_changes_sum_partial",
    "Dctl.C16_repeated_add",
    "Dctl.C16_stale_delete"
   ],
   "note": "Holds for event histories a watch delivers; false for a repeated Added and a Deleted carrying another version (witnesses)."
  },
  {
   "property": "C17",
   "status": "proved",
   "theorems": [
    "Dctl.C17_no_change",
    "Dctl.C17_noop_update"
   ],
   "note": "For declared sources of distinct kinds and deterministic gathers."
  },
  {
   "property": "C18",
   "status": "proved",
   "theorems": [
    "Dctl.C18_write_batches",
    "Dctl.C18_decision"
   ],
   "note": ""
  },
  {
   "property": "C19",
   "status": "partial",
   "theorems": [
    "Dctl.C19_view_maintenance_partial",
    "Dctl.C19_every_result_partial",
    "Dctl.C19_never_fails",
    "Dctl.C19_defined",
    "Dctl.C19_duplicates_lost"
   ],
   "note": "Proved when every intermediate result has at most one document per target object; false otherwise (witness)."
  },
  {
   "property": "C20",
   "status": "proved",
   "theorems": [
    "Dctl.C20_sync",
    "Dctl.C20_record_good",
    "Dctl.C20_second_sync"
   ],
   "note": ""
  },
  {
   "property": "C21",
   "status": "partial",
   "theorems": [
    "Dctl.C21_order_independent_partial"
   ],
   "note": "Under the hypotheses of C19."
  },
  {
   "property": "C22",
   "status": "partial",
   "theorems": [
    "Dctl.C22_stuck",
    "Dctl.C22_rejected_event_partial",
    "Dctl.C22_sync_recovers_partial"
   ],
   "note": "False for failures inside the executor (witness); proved for events rejected before it and for recovery by Sync."
  },
  {
   "property": "C23",
   "status": "partial",
   "theorems": [
    "Dctl.C23_update_lost",
    "Dctl.C23_delete_lost",
    "Dctl.C23_stale_retry",
    "Dctl.C23_target_partial",
    "Dctl.C23_no_failure_partial"
   ],
   "note": "False: lost updates and deletes for any number of retries; exact characterisation of the target proved."
  },
  {
   "property": "C24",
   "status": "partial",
   "theorems": [
    "Dctl.C24_reordered_writes",
    "Dctl.C24_conflict_free_partial",
    "Dctl.C24_single_source_partial"
   ],
   "note": "False for two workers writing one object (witness); proved for all conflict-free interleavings and for a single source."
  },
  {
   "property": "C25",
   "status": "partial",
   "theorems": [
    "Dctl.C25_untouched",
    "Dctl.C25_scalar",
    "Dctl.C25_recursive",
    "Dctl.C25_list",
    "Dctl.C25_null_partial",
    "Dctl.C25_idempotent",
    "Dctl.C25_empty",
    "Dctl.C25_nested_null_kept",
    "Dctl.C25_null_shortcut"
   ],
   "note": "Everything proved except removal of nulls, which is false inside maps the original lacks and when the patch equals the original (two witnesses); C25_null_partial proves removal whenever the parent map exists."
  },
  {
   "property": "C26",
   "status": "partial",
   "theorems": [
    "Dctl.C26_untouched",
    "Dctl.C26_removed_partial",
    "Dctl.C26_roundtrip",
    "Dctl.C26_identity",
    "Dctl.C26_leftovers",
    "Dctl.C26_garbage"
   ],
   "note": "Fields not written are untouched; every scalar written is removed (for an upsert followed by a delete without condition on the target). False as stated: empty maps and lists of nulls stay, and a missing map is re-created with nulls (witnesses)."
  },
  {
   "property": "C27",
   "status": "proved",
   "theorems": [
    "Dctl.C27_present",
    "Dctl.C27_lists",
    "Dctl.C27_only",
    "Dctl.C27_total",
    "Dctl.C27_null_fails"
   ],
   "note": "Nulls meeting other values make the merge fail (C27_null_fails), hence the hypothesis of C27_total."
  },
  {
   "property": "C28",
   "status": "proved",
   "theorems": [
    "Dctl.C28_function",
    "Dctl.C28_only_uid",
    "Dctl.C28_native",
    "Dctl.C28_roundtrip",
    "Dctl.C28_distinct",
    "Dctl.C28_existing_kept"
   ],
   "note": "SHA-256 is an abstract function. A view object that already has a UID keeps it."
  },
  {
   "property": "C29",
   "status": "proved",
   "theorems": [
    "Dctl.C29_data",
    "Dctl.C29_other",
    "Dctl.C29_not_secret"
   ],
   "note": "Base64 decoding is an abstract partial function."
  },
  {
   "property": "C30",
   "status": "proved",
   "theorems": [
    "Dctl.C30_and",
    "Dctl.C30_or",
    "Dctl.C30_not",
    "Dctl.C30_de_morgan",
    "Dctl.C30_single"
   ],
   "note": "De Morgan holds even for erroneous operands."
  },
  {
   "property": "C31",
   "status": "partial",
   "theorems": [
    "Dctl.C31_quantifiers",
    "Dctl.C31_map",
    "Dctl.C31_early",
    "Dctl.C31_none_partial",
    "Dctl.C31_none_never",
    "Dctl.C31_none_wrong",
    "Dctl.C31_map_panics"
   ],
   "note": "@any, @all, @filter, @map proved; @none is false of the code: it never returns true (negation proved). @map with one argument panics."
  },
  {
   "property": "C32",
   "status": "partial",
   "theorems": [
    "Dctl.C32_ints",
    "Dctl.C32_floats",
    "Dctl.C32_eq",
    "Dctl.C32_eq_symm_partial",
    "Dctl.C32_in_partial",
    "Dctl.C32_mixed_wrong",
    "Dctl.C32_string_wrong",
    "Dctl.C32_eq_lists",
    "Dctl.C32_eq_same_list",
    "Dctl.C32_in_null"
   ],
   "note": "Proved for two integers or two floats and for operands that are no lists; false for mixed integers/floats/numeric strings, for lists and for null members (negations proved)."
  },
  {
   "property": "C33",
   "status": "proved",
   "theorems": [
    "Dctl.C33_cond",
    "Dctl.C33_definedOr",
    "Dctl.C33_switch"
   ],
   "note": ""
  },
  {
   "property": "C34",
   "status": "partial",
   "theorems": [
    "Dctl.C34_arith_partial",
    "Dctl.C34_sum_partial",
    "Dctl.C34_len",
    "Dctl.C34_minmax",
    "Dctl.C34_minmax_empty",
    "Dctl.C34_range",
    "Dctl.C34_concat",
    "Dctl.C34_overflow",
    "Dctl.C34_len_nested"
   ],
   "note": "Exact results unless the result overflows 64 bits (negation proved); literal lists whose first element is a list are flattened (negation proved)."
  },
  {
   "property": "C35",
   "status": "partial",
   "theorems": [
    "Dctl.C35_round_trip_partial",
    "Dctl.C35_any_lost",
    "Dctl.C35_any_value",
    "Dctl.C35_list_dropped",
    "Dctl.C35_floats",
    "Dctl.C35_float_changed",
    "Dctl.C35_float_literal",
    "Dctl.C35_empty_key"
   ],
   "note": "False for @any, for @list/@dict with an argument and for integral floats (negations proved); proved for all other parsed expressions."
  },
  {
   "property": "C36",
   "status": "proved",
   "theorems": [
    "Dctl.C36_setter",
    "Dctl.C36_set_get",
    "Dctl.C36_set_succeeds",
    "Dctl.C36_plain",
    "Dctl.C36_root",
    "Dctl.C36_subject"
   ],
   "note": "For paths of plain field names; other JSONPath queries are left to the library."
  },
  {
   "property": "C37",
   "status": "proved",
   "theorems": [
    "Dctl.C37_matches",
    "Dctl.C37_accepts",
    "Dctl.C37_texts",
    "Dctl.C37_values"
   ],
   "note": ""
  },
  {
   "property": "C38",
   "status": "partial",
   "theorems": [
    "Dctl.C38_group_injective",
    "Dctl.C38_view_groups",
    "Dctl.C38_own_kinds",
    "Dctl.C38_operator",
    "Dctl.C38_operator_mapped",
    "Dctl.C38_dotted_operator",
    "Dctl.C38_native_partial",
    "Dctl.C38_native_taken",
    "Dctl.C38_round_trip",
    "Dctl.C38_dotted_group"
   ],
   "note": "Injectivity proved. The operator is recovered exactly if its name has no dot; a native group/version exactly if neither has a dot and the group is not core; groups ending in view.dcontroller.io without a preceding dot are taken for view groups (negations proved)."
  },
  {
   "property": "C39",
   "status": "partial",
   "theorems": [
    "Dctl.C39_routing_partial",
    "Dctl.C39_native_watch",
    "Dctl.C39_subresource"
   ],
   "note": "For all sequences of calls except watches on native kinds and mixed subresource calls, which are proved to be routed wrongly."
  },
  {
   "property": "C40",
   "status": "partial",
   "theorems": [
    "Dctl.C40_selected",
    "Dctl.C40_get_partial",
    "Dctl.C40_frame",
    "Dctl.C40_content",
    "Dctl.C40_list",
    "Dctl.C40_slash",
    "Dctl.C40_suppressed"
   ],
   "note": "Get returns the last version written and not deleted since, for all histories without slashes in names and without updates whose old object is falsely the new one. Both exceptions are proved to break the property."
  },
  {
   "property": "C41",
   "status": "partial",
   "theorems": [
    "Dctl.C41_atomic_partial",
    "Dctl.C41_serial_partial",
    "Dctl.C41_race_writers",
    "Dctl.C41_race_initial"
   ],
   "note": "Holds for all histories of atomic operations, and for overlapping ones if no write touches an object with an event under way. Without that the handler can end with an old version or a deleted object (proved)."
  },
  {
   "property": "C42",
   "status": "partial",
   "theorems": [
    "Dctl.C42_watch_partial",
    "Dctl.C42_channel",
    "Dctl.C42_buffer",
    "Dctl.C42_initial_lost",
    "Dctl.C42_stale",
    "Dctl.C42_deaf"
   ],
   "note": "Holds if the channel never overflows, no write takes an object out of the selection, and the informer stays registered. Each exception is proved to break the property."
  },
  {
   "property": "C43",
   "status": "partial",
   "theorems": [
    "Dctl.C43_once_partial",
    "Dctl.C43_remove_local",
    "Dctl.C43_remove_stop",
    "Dctl.C43_remove_shared",
    "Dctl.C43_remove_handler",
    "Dctl.C43_append",
    "Dctl.C43_remove",
    "Dctl.C43_notify_partial",
    "Dctl.C43_race_twice",
    "Dctl.C43_race_missed"
   ],
   "note": "Holds for all histories of atomic operations, and for registrations during a notification. Unregistering during a notification can make an informer be called twice or not at all (proved)."
  },
  {
   "property": "C44",
   "status": "partial",
   "theorems": [
    "Dctl.C44_create",
    "Dctl.C44_create_existing",
    "Dctl.C44_delete",
    "Dctl.C44_delete_missing",
    "Dctl.C44_update_partial",
    "Dctl.C44_update_missing",
    "Dctl.C44_update_mapped",
    "Dctl.C44_patch_partial",
    "Dctl.C44_patch_missing",
    "Dctl.C44_patch_renames",
    "Dctl.C44_delete_all_partial",
    "Dctl.C44_delete_all_list",
    "Dctl.C44_sub_update_partial",
    "Dctl.C44_sub_create_partial",
    "Dctl.C44_sub_missing",
    "Dctl.C44_sub_get",
    "Dctl.C44_sub_patch_partial",
    "Dctl.C44_sub_patch_whole_partial",
    "Dctl.C44_sub_patch_missing",
    "Dctl.C44_sub_patch_rest"
   ],
   "note": "Create, Delete hold for all view objects; Update, Patch, DeleteAllOf for views of operators without dots. Proved wrong: Create of an existing object succeeds; Update and Patch miss mapped groups; a patch can write another object; DeleteAllOf on a kind ending in List deletes other objects. A patch of a subresource writes the other fields in the patch too."
  },
  {
   "property": "C45",
   "status": "partial",
   "theorems": [
    "Dctl.C45_update_state_partial",
    "Dctl.C45_create_body",
    "Dctl.C45_create_status",
    "Dctl.C45_no_subresource",
    "Dctl.C45_no_lost_partial",
    "Dctl.C45_no_lost_status_partial",
    "Dctl.C45_create_race",
    "Dctl.C45_update_lost",
    "Dctl.C45_no_change",
    "Dctl.C45_always_writes",
    "Dctl.C45_attempt_requests",
    "Dctl.C45_retry_requests",
    "Dctl.C45_retry_success",
    "Dctl.C45_view_no_write",
    "Dctl.C45_view_lost"
   ],
   "note": "For native objects against a model of the API server with a concurrent writer. Proved wrong: status lost on create, unseen objects overwritten after a failed create and by Update, write requests without change, views have no version check."
  },
  {
   "property": "C46",
   "status": "proved",
   "theorems": [
    "Dctl.C46_upsert",
    "Dctl.C46_delete",
    "Dctl.C46_frame",
    "Dctl.C46_metadata_not_replaced"
   ],
   "note": "Sequential writes, no interference. Metadata other than labels and annotations of the new object is not written, see C46_metadata_not_replaced."
  },
  {
   "property": "C47",
   "status": "partial",
   "theorems": [
    "Dctl.source_filters",
    "Dctl.one_request_per_event",
    "Dctl.no_other_request",
    "Dctl.drained_all_done",
    "Dctl.delta_content",
    "Dctl.delta_content_exact_partial",
    "Dctl.retry_decodes_twice"
   ],
   "note": "Exactly one request per event with the right type, name and kind in every reachable state; the content is that of the event, except that retries of Secrets see data decoded repeatedly (retry_decodes_twice)."
  },
  {
   "property": "C48",
   "status": "proved",
   "theorems": [
    "Dctl.predicate_accepted_iff",
    "Dctl.predicate_meaning",
    "Dctl.predicate_combinations",
    "Dctl.predicate_roundtrip",
    "Dctl.predicate_spec_roundtrip",
    "Dctl.predicate_deepCopy",
    "Dctl.predicate_roundtrip_both_fails"
   ],
   "note": "Values that set both alternatives (not obtainable from JSON) are the only ones that change, and they filter in the same way."
  },
  {
   "property": "C49",
   "status": "proved",
   "theorems": [
    "Dctl.namespace_restricted",
    "Dctl.namespace_no_more",
    "Dctl.no_user_denied"
   ],
   "note": ""
  },
  {
   "property": "C50",
   "status": "partial",
   "theorems": [
    "Dctl.rbac_exact",
    "Dctl.rbac_rules",
    "Dctl.rbac_monotone_partial",
    "Dctl.first_rule_removes",
    "Dctl.patterns_from_token",
    "Dctl.unreadable_denies"
   ],
   "note": "Access is exactly what the rules cover, and more rules give more access; but a user without rules may do everything, so giving a first rule removes access (first_rule_removes)."
  },
  {
   "property": "C51",
   "status": "partial",
   "theorems": [
    "Dctl.plain_pattern",
    "Dctl.wildcard_complete",
    "Dctl.wildcard_exact_partial",
    "Dctl.wildcard_overlap",
    "Dctl.end_wildcard_exact",
    "Dctl.pattern_reads"
   ],
   "note": "Exact for patterns without '*' and with one '*' at an end or whose name is long enough; prefix and suffix may overlap (\"ab*ba\" matches \"aba\", wildcard_overlap), and a pattern with several '*' not at both ends is compared literally."
  },
  {
   "property": "C52",
   "status": "proved",
   "theorems": [
    "Dctl.token_enforced",
    "Dctl.token_expires",
    "Dctl.only_with_token"
   ],
   "note": "The JWT library (signing, checking signature and dates) is a parameter with the contract Jwt.SoundFor."
  },
  {
   "property": "C53",
   "status": "partial",
   "theorems": [
    "Dctl.registration_total",
    "Dctl.registration_fails",
    "Dctl.served_exactly_partial",
    "Dctl.served_kind_partial",
    "Dctl.discovered_exactly_partial",
    "Dctl.stale_resource",
    "Dctl.kinds_collide"
   ],
   "note": "Holds for sequences that never register a group again with fewer kinds without unregistering it first; stale_resource shows such a sequence leaves a resource in service for ever. Kinds equal up to case share one resource (kinds_collide)."
  },
  {
   "property": "C54",
   "status": "partial",
   "theorems": [
    "Dctl.report_last_ten",
    "Dctl.ready_iff",
    "Dctl.not_ready_iff",
    "Dctl.operator_status_all",
    "Dctl.lost_error"
   ],
   "note": "Proved for pushes one after the other; there is no lock, and of two errors pushed at the same time one can be lost (lost_error)."
  },
  {
   "property": "C55",
   "status": "partial",
   "theorems": [
    "Dctl.OpCtl.one_instance_partial",
    "Dctl.OpCtl.latest_spec_partial",
    "Dctl.OpCtl.latest_event_partial",
    "Dctl.OpCtl.never_stops_partial",
    "Dctl.OpCtl.settles_partial",
    "Dctl.OpCtl.operators_served_partial",
    "Dctl.OpCtl.add_leaks",
    "Dctl.OpCtl.early_reconcile_panics",
    "Dctl.OpCtl.recreated_stale",
    "Dctl.OpCtl.many_rejected_block"
   ],
   "note": "Not as stated: AddOperator under a used name leaks the running operator; a reconciliation during Start panics; a recreation the informer sees as an update is dropped; more than 64 rejected controllers block the operator controller. Proved for all other event sequences."
  },
  {
   "property": "C56",
   "status": "partial",
   "theorems": [
    "Dctl.C56_views_rejected",
    "Dctl.C56_nothing_found",
    "Dctl.C56_shape_partial",
    "Dctl.C56_resource_partial",
    "Dctl.C56_lists_partial",
    "Dctl.C56_native",
    "Dctl.C56_singular",
    "Dctl.C56_singular_differ",
    "Dctl.C56_kind_lost",
    "Dctl.C56_fallback"
   ],
   "note": "False of the code: the view mapper rejects every view group (proved for all groups). What it returns for the groups it does accept is proved."
  },
  {
   "property": "C57",
   "status": "partial",
   "theorems": [
    "Dctl.C57_registered",
    "Dctl.C57_resources",
    "Dctl.C57_groups_partial",
    "Dctl.C57_version_count",
    "Dctl.C57_version_twice",
    "Dctl.C57_object_list",
    "Dctl.C57_list_object_partial",
    "Dctl.C57_list_resource",
    "Dctl.C57_list_kind",
    "Dctl.C57_kind_from_resource",
    "Dctl.C57_case_collision"
   ],
   "note": "Registered kinds and resources proved for all histories. False: a version is listed once per view of the group; kinds ending in List cannot be registered (negations proved)."
  },
  {
   "property": "C58",
   "status": "partial",
   "theorems": [
    "Dctl.pipeline_read_iff",
    "Dctl.bad_operation_rejected",
    "Dctl.pipeline_round_trip_partial",
    "Dctl.pipeline_copy",
    "Dctl.pipeline_changed"
   ],
   "note": "The round trip holds for plain expressions (C35); pipeline_changed is a pipeline that does not survive."
  },
  {
   "property": "C59",
   "status": "partial",
   "theorems": [
    "Dctl.exposed_sound",
    "Dctl.exposed_exactly_partial",
    "Dctl.rejected_not_exposed"
   ],
   "note": "Controllers rejected because of their target expose none of their sources."
  },
  {
   "property": "C60",
   "status": "proved",
   "theorems": [
    "Dctl.dispatch_exact",
    "Dctl.dispatch_rejects",
    "Dctl.dispatch_no_store",
    "Dctl.dispatch_registered_partial",
    "Dctl.discovery_pages_partial"
   ],
   "note": "dispatch_exact, dispatch_rejects and dispatch_no_store are unconditional; the two partial theorems combine them with C53 and inherit its hypotheses."
  },
  {
   "property": "C61",
   "status": "partial",
   "theorems": [
    "Dctl.C61_no_interference_partial",
    "Dctl.C61_lost_update",
    "Dctl.C61_never_creates",
    "Dctl.C61_others",
    "Dctl.C61_foreign_snapshot"
   ],
   "note": "False when the object changed after the snapshot (C61_lost_update); proved when the snapshot is of the patched object and up to date. Foreign snapshots are ignored, missing objects are never created, other objects never touched."
  },
  {
   "property": "C62",
   "status": "partial",
   "theorems": [
    "Dctl.C62_decoded_once_partial",
    "Dctl.C62_controller_partial",
    "Dctl.C62_retry_decodes_again",
    "Dctl.C62_patcher_writes_decoded"
   ],
   "note": "False for Secrets whose decoded text is base64 itself when an attempt is retried, and for Patchers targeting the watched Secret; proved for the other Secrets."
  },
  {
   "property": "C63",
   "status": "partial",
   "theorems": [
    "Dctl.C63_copy_partial",
    "Dctl.C63_data_as_path",
    "Dctl.C63_now"
   ],
   "note": "False for strings that start with a dollar sign and for the string @now (negations proved)."
  },
  {
   "property": "C64",
   "status": "partial",
   "theorems": [
    "Dctl.C64_order_partial",
    "Dctl.C64_order_matters"
   ],
   "note": "Proved for plain keys; false for keys that are paths (negation proved)."
  },
  {
   "property": "C65",
   "status": "partial",
   "theorems": [
    "Dctl.C65_own",
    "Dctl.C65_foreign",
    "Dctl.C65_native",
    "Dctl.C65_fails_iff",
    "Dctl.C65_foreign_version"
   ],
   "note": "False for a view of another operator given with a version other than v1alpha1 (negation proved)."
  },
  {
   "property": "C66",
   "status": "partial",
   "theorems": [
    "Dctl.filtered_source_exact_partial",
    "Dctl.namespace_source_exact",
    "Dctl.filtered_source_stale",
    "Dctl.negated_predicate_blocks"
   ],
   "note": "Exact for namespace filters and for objects that never leave a label filter; an object that leaves a label filter stays in the pipeline for ever (filtered_source_stale), and negated elementary predicates block all creations and deletions."
  },
  {
   "property": "C67",
   "status": "partial",
   "theorems": [
    "Dctl.events_in_order_partial",
    "Dctl.retry_reorders"
   ],
   "note": "In order as long as no reconciliation fails; a retry carries its old snapshot and comes after newer events (retry_reorders)."
  },
  {
   "property": "C68",
   "status": "proved",
   "theorems": [
    "Dctl.ticks_coalesce",
    "Dctl.tick_not_lost"
   ],
   "note": ""
  },
  {
   "property": "C69",
   "status": "partial",
   "theorems": [
    "Dctl.names_restricted_partial",
    "Dctl.names_bypassed"
   ],
   "note": "Holds for all verbs but list, watch, create and deletecollection, which ignore the resource names (names_bypassed: deletecollection removes objects not named)."
  },
  {
   "property": "C70",
   "status": "proved",
   "theorems": [
    "Dctl.api_isolated",
    "Dctl.plain_run",
    "Dctl.update_escapes"
   ],
   "note": "For names without slashes. The check of the generic handlers of Kubernetes that an update keeps name and namespace is a hypothesis (StoReq.Checked); update_escapes shows the storage itself does not check."
  },
  {
   "property": "C71",
   "status": "partial",
   "theorems": [
    "Dctl.read_calls",
    "Dctl.create_call_partial",
    "Dctl.create_overwrites",
    "Dctl.update_call_partial",
    "Dctl.update_call_missing",
    "Dctl.delete_call",
    "Dctl.delete_collection_call"
   ],
   "note": "A create of an object that exists overwrites it (create_overwrites). Updates are proved for kinds of the groups of operators."
  },
  {
   "property": "C72",
   "status": "partial",
   "theorems": [
    "Dctl.shown_first_partial",
    "Dctl.shown_apart_partial",
    "Dctl.shown_recent_partial",
    "Dctl.status_stale"
   ],
   "note": "Not as stated: errors dropped by the rate limiter are never shown, even critical ones (status_stale); what is shown is less than two seconds behind the last error (shown_recent_partial)."
  },
  {
   "property": "C73",
   "status": "partial",
   "theorems": [
    "Dctl.build_error_iff",
    "Dctl.build_accepted",
    "Dctl.build_pipeline",
    "Dctl.rejected_idle_partial",
    "Dctl.rejected_watches"
   ],
   "note": "Not as stated: controllers rejected late keep watching, with a nil pipeline (rejected_watches)."
  },
  {
   "property": "C74",
   "status": "proved",
   "theorems": [
    "Dctl.C74_accepted_iff",
    "Dctl.C74_object",
    "Dctl.C74_kind",
    "Dctl.C74_writes"
   ],
   "note": ""
  },
  {
   "property": "C75",
   "status": "partial",
   "theorems": [
    "Dctl.C75_cluster_partial"
   ],
   "note": "Under the hypotheses of C19 (one result per name, no failed evaluation) and with all writes succeeding in order; C23 and C24 show what happens otherwise."
  },
  {
   "property": "C76",
   "status": "partial",
   "theorems": [
    "Dctl.C76_accepted_iff",
    "Dctl.C76_unwind_number",
    "Dctl.C80_no_path"
   ],
   "note": "Not as stated: an unwind accepts any scalar literal (C76_unwind_number: it then fails on every document), a gather accepts a value expression that is no path (C80_no_path). C76_accepted_iff gives the exact condition."
  },
  {
   "property": "C77",
   "status": "proved",
   "theorems": [
    "Dctl.C77_select",
    "Dctl.C77_select_total",
    "Dctl.C77_join"
   ],
   "note": ""
  },
  {
   "property": "C78",
   "status": "proved",
   "theorems": [
    "Dctl.C78_one",
    "Dctl.C78_project",
    "Dctl.C78_total",
    "Dctl.C78_list",
    "Dctl.C78_empty"
   ],
   "note": ""
  },
  {
   "property": "C79",
   "status": "partial",
   "theorems": [
    "Dctl.C79_list",
    "Dctl.C79_no_list",
    "Dctl.C79_names",
    "Dctl.C79_nameless"
   ],
   "note": "For field paths outside the name. Not as stated: documents without a name are not rejected, they get names that begin with the text Go prints for nil (C79_nameless)."
  },
  {
   "property": "C80",
   "status": "partial",
   "theorems": [
    "Dctl.C80_gather",
    "Dctl.C80_total",
    "Dctl.C80_no_path",
    "Dctl.C80_representative"
   ],
   "note": "For field paths. Not as stated: which document of the group carries the list depends on the iteration order (C80_representative)."
  },
  {
   "property": "C81",
   "status": "partial",
   "theorems": [
    "Dctl.C81_sorted_partial",
    "Dctl.C81_mixed"
   ],
   "note": "Missing: lists with both integers and floats, for which it is false (C81_mixed)."
  },
  {
   "property": "C82",
   "status": "partial",
   "theorems": [
    "Dctl.C82_results",
    "Dctl.C82_cluster_partial",
    "Dctl.C82_never_fails_partial",
    "Dctl.C82_keeps_name"
   ],
   "note": "For writes applied in order; unwinds of field paths. Evaluations do not fail if the operations succeed on the objects of the history."
  },
  {
   "property": "C83",
   "status": "partial",
   "theorems": [
    "Dctl.C83_results",
    "Dctl.C83_cluster_partial",
    "Dctl.C83_never_fails_partial",
    "Dctl.C83_names"
   ],
   "note": "For writes applied in order; evaluations do not fail if the operations succeed on the tuples of objects of the history; C83_results also covers unwinds after the join."
  },
  {
   "property": "C84",
   "status": "partial",
   "theorems": [
    "Dctl.C84_results",
    "Dctl.C84_cluster_partial",
    "Dctl.C84_never_fails_partial",
    "Dctl.C84_names",
    "Dctl.C84_results_versions",
    "Dctl.C84_cluster_versions_partial",
    "Dctl.C84_never_fails_versions_partial"
   ],
   "note": "For writes applied in order and results with different names; unwinds and gathers of field paths."
  },
  {
   "property": "C85",
   "status": "partial",
   "theorems": [
    "Dctl.C85_writes_exact_partial",
    "Dctl.C85_quiet_partial"
   ],
   "note": "Under the hypotheses of C19 (results of different names, no failed evaluation); C85_quiet_partial for deterministic gathers."
  },
  {
   "property": "C86",
   "status": "partial",
   "theorems": [
    "Dctl.C86_settled_partial",
    "Dctl.C86_every_result_partial",
    "Dctl.C86_updater_partial",
    "Dctl.C86_views_partial"
   ],
   "note": "For results of different names (proved for views in C86_views_partial), one writer per target kind, writes of one object sent in order (C24), no failed evaluation or write, sources without filters. Evaluations and single writes are separate steps."
  },
  {
   "property": "C87",
   "status": "partial",
   "theorems": [
    "Dctl.C87_terminates",
    "Dctl.C87_progress",
    "Dctl.C87_progress_send",
    "Dctl.C87_settles_partial",
    "Dctl.C87_views_partial",
    "Dctl.C87_cycle_endless"
   ],
   "note": "Steps as in C86. A controller that feeds itself may never come to rest (C87_cycle_endless)."
  },
  {
   "property": "C88",
   "status": "partial",
   "theorems": [
    "Dctl.C88_patcher_partial",
    "Dctl.C88_join_partial",
    "Dctl.C88_stale_field"
   ],
   "note": "For results of different names and deterministic gathers, writes made on the current object (C61), scalar fields. False in general: fields of earlier versions of a result stay for ever (C88_stale_field)."
  },
  {
   "property": "C89",
   "status": "partial",
   "theorems": [
    "Dctl.C89_read",
    "Dctl.C89_condition",
    "Dctl.C89_never_fails_partial",
    "Dctl.C89_annotation_partial",
    "Dctl.C89_only_annotation_partial",
    "Dctl.C89_quiet_partial",
    "Dctl.C89_two_links"
   ],
   "note": "For Deployments named by at most one ConfigDeployment object and fields that do not look like paths, writes made on the current object (C61), no failed writes. False for Deployments named twice (C89_two_links)."
  },
  {
   "property": "C90",
   "status": "partial",
   "theorems": [
    "Dctl.C90_read",
    "Dctl.C90_condition",
    "Dctl.C90_text",
    "Dctl.C90_never_fails_partial",
    "Dctl.C90_annotation_partial",
    "Dctl.C90_only_annotation_partial",
    "Dctl.C90_quiet_partial"
   ],
   "note": "For fields that do not look like paths and HealthViews that have a list of pods, writes made on the current object (C61), no failed writes."
  },
  {
   "property": "C91",
   "status": "partial",
   "theorems": [
    "Dctl.C91_read",
    "Dctl.C91_views_partial",
    "Dctl.C91_clash",
    "Dctl.C91_no_app"
   ],
   "note": "For pods with a label app, a name, a namespace and a status that do not look like paths, applications that differ in name--namespace, no failed writes. False in general: C91_clash (two applications with the same name--namespace), C91_no_app (one pod without the label app stops the controller)."
  },
  {
   "property": "C92",
   "status": "partial",
   "theorems": [
    "Dctl.C92_annotation_partial"
   ],
   "note": "Under the hypotheses of C90 and C91, when the second controller has seen the HealthViews that are in the cluster."
  },
  {
   "property": "C93",
   "status": "partial",
   "theorems": [
    "Dctl.C93_read",
    "Dctl.C93_condition",
    "Dctl.C93_views_partial"
   ],
   "note": "Under the hypothesis that names, namespaces, types and the annotation do not look like paths and that ports are lists; failing or reordered writes are left out."
  },
  {
   "property": "C94",
   "status": "partial",
   "theorems": [
    "Dctl.C94_read",
    "Dctl.C94_condition",
    "Dctl.C94_ready",
    "Dctl.C94_views_partial",
    "Dctl.C94_duplicate"
   ],
   "note": "False as stated: an address that is in two EndpointSlices loses its view when it is removed from one of them (C94_duplicate). Proved under the hypotheses that there are no such duplicates, that the hash tells the combinations apart and that fields do not look like paths; failing or reordered writes are left out."
  },
  {
   "property": "C95",
   "status": "partial",
   "theorems": [
    "Dctl.C95_literal_partial",
    "Dctl.C95_rejected",
    "Dctl.C95_null",
    "Dctl.C95_nested_list",
    "Dctl.C95_empty_string"
   ],
   "note": "False as stated: null is read as false, the empty string is rejected, and a list that begins with a list loses all other elements. Proved for all values without these and without operators, paths and integers of more than 64 bits; which values are rejected is characterised exactly."
  },
  {
   "property": "C96",
   "status": "partial",
   "theorems": [
    "Dctl.C96_string_partial",
    "Dctl.C96_string_wrong",
    "Dctl.C96_string_path",
    "Dctl.C96_int_string",
    "Dctl.C96_int_other",
    "Dctl.C96_round_trip",
    "Dctl.C96_bool",
    "Dctl.C96_float"
   ],
   "note": "False as stated: @string fails on booleans, garbles floats and follows strings that look like paths, @int rejects floats, @bool converts nothing. The rest is proved; parsing of floats is left to the environment."
  },
  {
   "property": "C97",
   "status": "partial",
   "theorems": [
    "Dctl.C97_hash",
    "Dctl.C97_rnd_partial",
    "Dctl.C97_rnd_empty",
    "Dctl.C97_rnd_wide",
    "Dctl.C97_isnil",
    "Dctl.C97_exists"
   ],
   "note": "@rnd panics on empty and on too wide ranges, otherwise it is in range given the contract of rand.Intn; the other parts are proved in full. MD5 is abstract."
  },
  {
   "property": "C98",
   "status": "partial",
   "theorems": [
    "Dctl.C98_endpoints_partial"
   ],
   "note": "Under the hypotheses of C93 and C94, when the second controller has seen the ServiceViews that are in the cluster."
  },
  {
   "property": "C99",
   "status": "partial",
   "theorems": [
    "Dctl.C99_once_partial",
    "Dctl.C99_starts",
    "Dctl.C99_only",
    "Dctl.C99_shared"
   ],
   "note": "For view kinds, on the model of the view cache with atomic operations. Proved wrong: with two one-shot sources of the same kind the first is triggered twice."
  },
  {
   "property": "C100",
   "status": "partial",
   "theorems": [
    "Dctl.C100_conditions",
    "Dctl.C100_labels_partial",
    "Dctl.C100_labels_one",
    "Dctl.C100_labels_unstable",
    "Dctl.C100_columns",
    "Dctl.C100_rows"
   ],
   "note": "Proved wrong: with two or more labels the cell depends on the random iteration order, with more than three even which labels are shown."
  },
  {
   "property": "C101",
   "status": "partial",
   "theorems": [
    "Dctl.C101_sound",
    "Dctl.C101_of_spec",
    "Dctl.C101_drawing_partial",
    "Dctl.C101_lost_writer",
    "Dctl.C101_lost_reader",
    "Dctl.C101_split_view"
   ],
   "note": "Edges of the graph before rendering. Proved wrong: views with several writers, views written by nobody in the operator, views referred to with and without their group."
  },
  {
   "property": "C102",
   "status": "partial",
   "theorems": [
    "Dctl.C102_repaired_partial",
    "Dctl.C102_json_partial",
    "Dctl.C102_left",
    "Dctl.C102_event_left",
    "Dctl.C102_never"
   ],
   "note": "Holds for objects made of documents that are not themselves objects of the target's kind and version. Proved wrong for the others: Sync compares with the pipeline's own record, not with the target, so changes made by others and lost deletes stay for ever."
  },
  {
   "property": "C103",
   "status": "partial",
   "theorems": [
    "Dctl.C103_views",
    "Dctl.C103_native",
    "Dctl.C103_groups",
    "Dctl.C103_all_partial",
    "Dctl.C103_preferred_partial",
    "Dctl.C103_legacy_lost",
    "Dctl.C103_failure",
    "Dctl.C103_slash"
   ],
   "note": "Answers of the native client are arbitrary. Proved wrong: the legacy form of the client has no views; an error of the native client hides everything; a slash in a view group hides everything."
  },
  {
   "property": "C104",
   "status": "partial",
   "theorems": [
    "Dctl.C104_wiring_partial",
    "Dctl.C104_shared_partial",
    "Dctl.C104_own",
    "Dctl.C104_headless_composite",
    "Dctl.C104_view_with_config"
   ],
   "note": "Writes are atomic here (races: C42). Proved wrong: a headless operator cannot share a composite cache, and with a configuration and a bare view cache writing a view dereferences nil."
  },
  {
   "property": "C105",
   "status": "partial",
   "theorems": [
    "Dctl.C105_lists",
    "Dctl.C105_granted_partial",
    "Dctl.C105_expires",
    "Dctl.C105_refused",
    "Dctl.C105_blank_namespaces",
    "Dctl.C105_names_without_rules",
    "Dctl.C105_blank_names",
    "Dctl.C105_connects",
    "Dctl.C105_extracted",
    "Dctl.C105_shown",
    "Dctl.C105_shows_enforced_partial",
    "Dctl.C105_shown_refused",
    "Dctl.C105_shown_panics"
   ],
   "note": "Partial: the grant is exact unless a list has no items, the rules are an empty list, or names come without rules; each of these is proved to grant more than asked for. get-config is proved right for the methods the server accepts, wrong for others and for tokens without dates."
  },
  {
   "property": "C106",
   "status": "partial",
   "theorems": [
    "Dctl.C106_in_order",
    "Dctl.C106_handed_over",
    "Dctl.C106_shown_was_true",
    "Dctl.C106_shown_partial",
    "Dctl.C106_settles",
    "Dctl.C106_served",
    "Dctl.C106_eventually_partial",
    "Dctl.C106_dropped",
    "Dctl.C106_older_wins",
    "Dctl.C106_replaced",
    "Dctl.C106_failed_write",
    "Dctl.C106_no_panic_partial",
    "Dctl.C106_panics",
    "Dctl.C106_waits",
    "Dctl.C106_waits_for_ever"
   ],
   "note": "Order, truth and termination hold of all runs. That the status shown is up to date is proved for runs in which the two goroutines that write statuses do not overlap on one operator and the cluster answers; without that it is proved false in three ways. Panics are excluded until shutdown and shown to occur then."
  },
  {
   "property": "C107",
   "status": "partial",
   "theorems": [
    "Dctl.C107_generated_partial",
    "Dctl.C107_answers_partial",
    "Dctl.C107_sequential_partial",
    "Dctl.C107_settles_partial",
    "Dctl.C107_stale",
    "Dctl.C107_collide",
    "Dctl.C107_references"
   ],
   "note": "Every answer describes what was registered at some moment; it describes what is registered when it is given if no request holds unstored definitions during a change, and from the first such change on. Proved wrong otherwise: definitions generated before a registration are stored after it and served until the next change; kinds with dots can share a definition name."
  },
  {
   "property": "C108",
   "status": "partial",
   "theorems": [
    "Dctl.C108_no_panic_partial",
    "Dctl.C108_others",
    "Dctl.C108_known",
    "Dctl.C108_panics"
   ],
   "note": "Registering panics exactly for kinds that clash in the type scheme with kinds registered before, which unregistering does not remove, or with kinds of the library; such kinds are exhibited."
  },
  {
   "property": "C109",
   "status": "partial",
   "theorems": [
    "Dctl.C109_linear",
    "Dctl.C109_unlifted",
    "Dctl.C109_nonlinear",
    "Dctl.C109_bilinear",
    "Dctl.C109_quiet",
    "Dctl.C109_input",
    "Dctl.C109_new_input",
    "Dctl.C109_arith",
    "Dctl.C109_constant",
    "Dctl.C109_fused_partial",
    "Dctl.C109_fused_wrong"
   ],
   "note": "Proved for all operators of chains, all joins, inputs, constants, sums and differences. A fused operator is linear if its nodes declare themselves linear; it declares itself linear in any case, which is wrong for a fused distinct."
  },
  {
   "property": "C110",
   "status": "partial",
   "theorems": [
    "Dctl.Mem.C110_copy",
    "Dctl.Mem.C110_copy_cycle",
    "Dctl.Mem.C110_step_partial",
    "Dctl.Mem.C110_history_partial",
    "Dctl.Mem.C110_input_is_held",
    "Dctl.Mem.C110_fused_writes",
    "Dctl.Mem.C110_unwind_shares"
   ],
   "note": "Proved for evaluators that write to no existing cell or, in projections, to the document they were given only, and for callers that leave the inputs of earlier calls alone. Both are needed: integrators hold the documents of their input, fused operators give evaluators the document itself. Map iteration in the order of insertion. The joins for two inputs, which the pipeline does not use, are not included."
  },
  {
   "property": "C111",
   "status": "partial",
   "theorems": [
    "Dctl.C111_types",
    "Dctl.C111_misspelt",
    "Dctl.C111_pipeline",
    "Dctl.C111_target",
    "Dctl.C111_duration",
    "Dctl.C111_duration_form",
    "Dctl.C111_wraps",
    "Dctl.C111_period",
    "Dctl.C111_period_default",
    "Dctl.C111_start",
    "Dctl.C111_not_early",
    "Dctl.C111_every_period_partial",
    "Dctl.C111_stopped",
    "Dctl.C111_queue",
    "Dctl.C111_dropped",
    "Dctl.C111_zero"
   ],
   "note": "Proved wrong: unknown types of sources give watchers; a period that is no duration is silently taken as five minutes; ticks are dropped while the goroutine does not keep up. The rest is proved; fractions of units are computed with floats, which are left to the environment."
  },
  {
   "property": "C112",
   "status": "partial",
   "theorems": [
    "Dctl.C112_read",
    "Dctl.C112_services_partial",
    "Dctl.C112_views_partial",
    "Dctl.C112_endpoints_partial"
   ],
   "note": "Proved end to end for both controllers, from the JSON of the pipelines to the objects in the cluster, under the schema of Kubernetes (ports with protocol and number, addresses are strings, no field looks like a path). No hypothesis on duplicates or hashes is needed. Missing: failing or reordered writes, fields that look like paths."
  },
  {
   "property": "C113",
   "status": "proved",
   "theorems": [
    "Dctl.C113_refines",
    "Dctl.C113_consistent",
    "Dctl.C113_compiled",
    "Dctl.C113_not_compiled",
    "Dctl.C113_rejected",
    "Dctl.C113_replace_by_nothing"
   ],
   "note": "A refinement over all sequences of calls. ReplaceInChain is taken with at least one new operator, as its only caller does; without one it can leave the output at a node that is gone (C113_replace_by_nothing). Each node holds an operator of its own."
  },
  {
   "property": "C114",
   "status": "partial",
   "theorems": [
    "Dctl.C114_chain_partial",
    "Dctl.C114_join_partial",
    "Dctl.C114_unknown",
    "Dctl.C114_not_readonly",
    "Dctl.C114_names_panic"
   ],
   "note": "Proved wrong: looking advances the operators, so a delta looked at and then processed is counted twice; and the inputs have to be given by node identifiers, unlike in Process, with the names the function panics. The rest is proved, including exactly which operators advance."
  },
  {
   "property": "C115",
   "status": "partial",
   "theorems": [
    "Dctl.C115_pair",
    "Dctl.C115_end_to_end_partial",
    "Dctl.C115_permissions",
    "Dctl.C115_key_private_partial",
    "Dctl.C115_key_readable",
    "Dctl.C115_same_file",
    "Dctl.C115_half_written"
   ],
   "note": "Proved wrong: generate-keys gives its two files in the wrong order, so a new private key gets the permissions of the certificate and everyone can read it. Fit and rights are proved (for what C105 proves), given that the libraries read what they write."
  },
  {
   "property": "C116",
   "status": "partial",
   "theorems": [
    "Dctl.C116_open_iff",
    "Dctl.C116_enforced",
    "Dctl.C116_pair_partial",
    "Dctl.C116_other_pair",
    "Dctl.C116_newer_format",
    "Dctl.C116_panics_iff",
    "Dctl.C116_panics",
    "Dctl.C116_address_ignored",
    "Dctl.C116_localhost_exposed",
    "Dctl.C116_certificate",
    "Dctl.C116_http",
    "Dctl.C116_without_server"
   ],
   "note": "Access is proved as stated, for certificate files that begin with a block labelled as a certificate. Proved wrong: the flags for address and port are ignored and the server listens on all addresses; with --disable-authentication the certificate is ignored; certificate files that begin with something else make start panic; keys in the newer format start the server but make no tokens."
  },
  {
   "property": "C117",
   "status": "partial",
   "theorems": [
    "Dctl.C117_one_partial",
    "Dctl.C117_race",
    "Dctl.C117_flag",
    "Dctl.C117_no_restart",
    "Dctl.C117_deaf"
   ],
   "note": "Holds if calls do not overlap between the look at the flag and its being set. Proved wrong: overlapping calls both run; a server that has ended accepts a new start but never answers again, its sockets being closed."
  },
  {
   "property": "C118",
   "status": "partial",
   "theorems": [
    "Dctl.C118_terminates",
    "Dctl.C118_settles_partial",
    "Dctl.C118_at_rest_partial",
    "Dctl.C118_write",
    "Dctl.C118_configdep_partial",
    "Dctl.C118_livelock"
   ],
   "note": "Holds for any number of controllers whose pipelines use no more of the objects they patch than that they exist, if users leave the patched field alone and patches of one object are sent in order; proved in full for the configmap-deployment operator of the project. Proved wrong otherwise: if the pipeline uses a field of the patched object, one change of that field by a user between an evaluation and its patch makes the controller switch the object back and forth for ever."
  },
  {
   "property": "C119",
   "status": "partial",
   "theorems": [
    "Dctl.C119_content",
    "Dctl.C119_native_partial",
    "Dctl.C119_slash"
   ],
   "note": "Holds for operator names without a slash, which the names of Kubernetes objects never have; with a slash in the name the group and version do not parse and the kind of the object is lost (C119_slash)."
  },
  {
   "property": "C120",
   "status": "partial",
   "theorems": [
    "Dctl.C120_read_slices",
    "Dctl.C120_read_deployments",
    "Dctl.C120_slices_partial",
    "Dctl.C120_deployments_partial",
    "Dctl.C120_endless"
   ],
   "note": "Holds if users never change the reference (label or annotation that names the Service or ConfigMap) of an object, nor the written annotation. Proved wrong in general: one change of the label between an evaluation and its patch, and the operator never comes to rest, in whatever order it goes on (C120_endless)."
  },
  {
   "property": "C121",
   "status": "partial",
   "theorems": [
    "Dctl.C121_read_containers",
    "Dctl.C121_read_managed",
    "Dctl.C121_containers_partial",
    "Dctl.C121_managed_partial",
    "Dctl.C121_no_containers",
    "Dctl.C121_endless"
   ],
   "note": "The constant: holds whatever users change but the annotation. The number of containers: holds if it never changes for a name. Proved wrong in general: one change of the number between an evaluation and its patch, and the operator never comes to rest (C121_endless); a Pod without the field gets 1 (C121_no_containers)."
  },
  {
   "property": "C122",
   "status": "partial",
   "theorems": [
    "Dctl.Mem.C122_values_partial",
    "Dctl.Mem.C122_private",
    "Dctl.Mem.C122_untouched",
    "Dctl.Mem.C122_new",
    "Dctl.Mem.C122_ends",
    "Dctl.Mem.C122_old_shared",
    "Dctl.Mem.C122_indexer"
   ],
   "note": "Holds for everything but the old version in updates, which handlers share with each other and with the caller (Mem.C122_old_shared), and but for programs that use GetStore or GetIndexer of an informer, which give access to the stored objects (Mem.C122_indexer). Transforms are not modelled."
  },
  {
   "property": "C123",
   "status": "partial",
   "theorems": [
    "Dctl.Mem.C123_convert",
    "Dctl.Mem.C123_step_partial",
    "Dctl.Mem.C123_history_partial",
    "Dctl.Mem.C123_evaluate"
   ],
   "note": "Proved for the conversion of deltas, the source cache and the graph, for objects that have a kind and an API version and evaluators that write to no document but the one they are given (as in C110). The second half of Evaluate is C124."
  },
  {
   "property": "C124",
   "status": "partial",
   "theorems": [
    "Dctl.Mem.C124_emit",
    "Dctl.Mem.C124_step_partial",
    "Dctl.Mem.C124_history_partial"
   ],
   "note": "Proved for whole calls of Evaluate, for objects that have a kind and an API version, targets whose API version can be read back, sources of different kinds, and evaluators that write to no document but the one they are given and return documents without double keys (as in C110; C125_values_partial replaces the last condition by one on values)."
  },
  {
   "property": "C125",
   "status": "partial",
   "theorems": [
    "Dctl.Mem.C125_step_partial",
    "Dctl.Mem.C125_history_values_partial",
    "Dctl.Mem.C125_values_partial",
    "Dctl.Mem.C125_evaluate_partial",
    "Dctl.Mem.C125_history_partial"
   ],
   "note": "Proved for whole calls of Sync and Evaluate, under the conditions of C124."
  }
 ]
}
