# Axioms each property theorem depends on

Printed by `#print axioms` for every theorem named in MANIFEST.json.

## Quot.sound (1 theorems)

* `Verif.Enc.Nils.C178_native_partial`

## none (9 theorems)

* `Verif.Ctx.C21_range_nil`
* `Verif.Ctx.C22_not_cancelled`
* `Verif.Pipe.C47_close_again`
* `Verif.Ctx.C65_repeat_violated`
* `Verif.Ws.C90_ends_partial`
* `Verif.Ws.Serve.C134_reader`
* `Verif.Prom.Conc.C149_race_violated`
* `Verif.Ws.TestCtx.Race.C158_race_violated`
* `Verif.Enc.Nils.C178_native_violated`

## propext (90 theorems)

* `Verif.Caches.C08_single_flight_violated`
* `Verif.Lists.Equal.C12_addUnique_nan_violated`
* `Verif.Utils.C17_goroutine_progress`
* `Verif.Errors.C19_wrap_nil`
* `Verif.Errors.C19_message`
* `Verif.Errors.C20_error_code`
* `Verif.Errors.C20_outermost_wins`
* `Verif.Ctx.C22_values_kept`
* `Verif.Ctx.C22_cause_leaks`
* `Verif.Ctx.C23_untracked_uuid`
* `Verif.Ctx.C24_witness_violated`
* `Verif.Prom.C28_scrape_violated`
* `Verif.Prom.C28_no_bounds_partial`
* `Verif.Shutdown.C31_closed_once`
* `Verif.Shutdown.C32_at_close_violated`
* `Verif.Api.C53_name`
* `Verif.Http.C59_do`
* `Verif.Ws.C60_ends`
* `Verif.Ctx.C65_repeat_message_partial`
* `Verif.Shutdown.C67_hold_reuse_violated`
* `Verif.Storage.C69_isolation_partial`
* `Verif.Http.Listen.C85_partial`
* `Verif.Http.Listen.C85_refused`
* `Verif.Http.Listen.C85_violated`
* `Verif.Openapi.C86_keys_partial`
* `Verif.Ws.C90_violated`
* `Verif.Ws.Test.C93_own_result_partial`
* `Verif.Ctx.C94_last_attached`
* `Verif.Ctx.C94_tag_shadows`
* `Verif.Ast.C97_closed_block_partial`
* `Verif.Ast.C97_last_partial`
* `Verif.Ast.C97_own_assignment_violated`
* `Verif.Ast.C97_leak_violated`
* `Verif.Ast.C98_empty_literal_violated`
* `Verif.Utils.Stack.C100_present`
* `Verif.Test.C104_func_violated`
* `Verif.Test.C104_typed_nil_violated`
* `Verif.Test.C104_nil_is_empty`
* `Verif.Test.C104_empty_partial`
* `Verif.Test.C104_empty_panics_violated`
* `Verif.Prom.C107_early_failure_partial`
* `Verif.Enc.Factory.C122_pointers_partial`
* `Verif.Enc.Durations.C123_text_partial`
* `Verif.Enc.Durations.C123_none`
* `Verif.Enc.Durations.C123_order_violated`
* `Verif.Ctx.Slog.C124_dropped_partial`
* `Verif.Sync.C125_interfaces`
* `Verif.Ws.Serve.C134_rpc`
* `Verif.Ws.Serve.C134_refused_violated`
* `Verif.Ws.Serve.C134_close_partial`
* `Verif.Ws.Serve.C134_close_violated`
* `Verif.Ws.Serve.C134_handshake_violated`
* `Verif.Lists.Heap.C135_addUnique_violated`
* `Verif.Lists.Heap.C135_split_violated`
* `Verif.Lists.Sort.C136_perm`
* `Verif.Lists.Sort.C136_stable_partial`
* `Verif.Lists.Sort.C136_nan_violated`
* `Verif.Http.CallBody.C142_write`
* `Verif.Http.CallBody.C142_serve`
* `Verif.Http.CallBody.C142_length_violated`
* `Verif.Ws.EndLog.C144_always_violated`
* `Verif.Ws.EndLog.C144_quiet`
* `Verif.Caches.Wait.C151_hit_violated`
* `Verif.Caches.Wait.C151_cross_violated`
* `Verif.Api.Isolate.C153_lost_violated`
* `Verif.Api.Isolate.C153_seen_violated`
* `Verif.OMap.Reenter.C154_order`
* `Verif.OMap.Reenter.C154_deleted_violated`
* `Verif.OMap.Reenter.C154_stale_violated`
* `Verif.Test.Contexts.C155_last`
* `Verif.Test.Contexts.C155_tester_violated`
* `Verif.Test.Contexts.C155_deadline`
* `Verif.Ws.TestCtx.C158_ends_partial`
* `Verif.Errors.Compare.C160_ctx_violated`
* `Verif.Caches.Conc.C164_goes_on`
* `Verif.Caches.Conc.C164_string_violated`
* `Verif.Caches.Conc.C164_torn_violated`
* `Verif.Prom.Reg.C168_goes_on`
* `Verif.TestIO.Shared.C169_empty_violated`
* `Verif.Sync.Race.C170_conflicts`
* `Verif.Http.Wrapped.C172_hijack`
* `Verif.Http.Wrapped.C172_code_violated`
* `Verif.Http.Wrapped.C172_direct`
* `Verif.Enc.Nils.C178_into_violated`
* `Verif.Ws.Shared.C184_seen_violated`
* `Verif.Ws.Shared.C184_lost_violated`
* `Verif.Http.Requests.C185_ws_partial`
* `Verif.Http.Logged.C187_call_violated`
* `Verif.Sync.Stall.C188_iff_partial`
* `Verif.Caches.Panics.C190_room_violated`

## propext, Classical.choice, Quot.sound (593 theorems)

* `Verif.Caches.C01_lru_sound`
* `Verif.Caches.C01_negative_budget_panics`
* `Verif.Caches.C02_get_cases`
* `Verif.Caches.C02_hit_is_last_stored`
* `Verif.Caches.C03_invalidate`
* `Verif.Caches.C04_eviction_order`
* `Verif.Caches.C04_refines_fifo`
* `Verif.Caches.C05_hit_changes_nothing`
* `Verif.Caches.C07_served_until_expiry`
* `Verif.Caches.C07_otherwise_fetches`
* `Verif.Caches.C07_hit_is_latest_fetch`
* `Verif.Caches.C07_no_panic`
* `Verif.Caches.C08_fetch_exclusive`
* `Verif.Caches.C08_hit_sound`
* `Verif.Caches.C08_redundant_fetch_at_most_once`
* `Verif.Lists.C09_split_panics_iff`
* `Verif.Lists.C09_split_spec`
* `Verif.Lists.C10_reverse`
* `Verif.Lists.C10_reverse_involutive`
* `Verif.Lists.C11_permute`
* `Verif.Lists.C12_set`
* `Verif.Sync.C15_no_panic`
* `Verif.Sync.C15_mutual_exclusion`
* `Verif.Sync.C15_true_means_held`
* `Verif.Sync.C15_held_until_unlock`
* `Verif.Sync.C15_false_releases`
* `Verif.Sync.C15_false_closes`
* `Verif.Sync.C15_never_lost`
* `Verif.Utils.C17_cancel_stops`
* `Verif.Ctx.C22_derived_own_only`
* `Verif.Ctx.C23_siblings_distinct_violated`
* `Verif.Ctx.C23_nested_distinct_partial`
* `Verif.Ctx.C24_child_uses_logger`
* `Verif.Ctx.C24_parent_unaffected_violated`
* `Verif.Ctx.C24_unconfigured_partial`
* `Verif.Ctx.C24_child_keeps_rest`
* `Verif.Ctx.C24_other_cell_partial`
* `Verif.Ctx.C24_other_cell_helper_partial`
* `Verif.Enc.Wire8.C26_bytes`
* `Verif.Prom.C27_histogram`
* `Verif.Prom.C29_counter`
* `Verif.Prom.C29_gauge`
* `Verif.Prom.C30_register`
* `Verif.Shutdown.C33_escalation`
* `Verif.Shutdown.C33_first_signal_begins`
* `Verif.Storage.C35_range`
* `Verif.Storage.C35_each_once`
* `Verif.Storage.C35_no_filters`
* `Verif.Storage.C36_equal`
* `Verif.Storage.C36_not_equal`
* `Verif.Storage.C36_unsupported`
* `Verif.Config.C37_from`
* `Verif.Config.C37_failure`
* `Verif.Config.C38_bool`
* `Verif.Config.C38_int`
* `Verif.Config.C38_string`
* `Verif.Config.C38_list`
* `Verif.Config.C38_empty_keeps`
* `Verif.Config.C38_map`
* `Verif.Config.C38_other`
* `Verif.Config.C38_methods`
* `Verif.Enc.C39_round_trip`
* `Verif.Enc.C39_plain`
* `Verif.Enc.C40_round_trip`
* `Verif.Enc.C41_round_trip`
* `Verif.Enc.Failing.C42_refusing`
* `Verif.Enc.Failing.C42_refused`
* `Verif.Enc.C42_only_mentioned`
* `Verif.Enc.C42_unknown_ignored`
* `Verif.Enc.C42_reported`
* `Verif.Enc.C43_never_written`
* `Verif.Enc.C43_never_read_partial`
* `Verif.Enc.C43_violated`
* `Verif.Enc.C44_tags`
* `Verif.Enc.C44_written`
* `Verif.Enc.C44_all_present`
* `Verif.Enc.C45_key_violated`
* `Verif.Enc.C45_int`
* `Verif.Enc.C45_uint_partial`
* `Verif.Enc.C45_wrap`
* `Verif.Enc.C45_in_range_partial`
* `Verif.Enc.C45_truncation_violated`
* `Verif.Enc.C45_uint64_violated`
* `Verif.Enc.C46_integer_part`
* `Verif.Enc.C46_exponent_violated`
* `Verif.Enc.C48_json`
* `Verif.Enc.C48_unmarshal`
* `Verif.Api.C49_inputs`
* `Verif.Api.C49_template`
* `Verif.Api.C50_required`
* `Verif.Api.C50_auth_required`
* `Verif.Api.C50_identity_partial`
* `Verif.Api.C50_body_irrelevant_partial`
* `Verif.Api.C50_violated`
* `Verif.Api.C50_spoofed_violated`
* `Verif.Api.C51_sent`
* `Verif.Api.C51_no_leak`
* `Verif.Api.C51_client`
* `Verif.Api.C52_request`
* `Verif.Api.C52_response`
* `Verif.Api.C52_call_partial`
* `Verif.Api.C52_violated`
* `Verif.Api.C53_words`
* `Verif.Api.C53_valid`
* `Verif.Openapi.C54_resolves`
* `Verif.Openapi.C54_described`
* `Verif.Openapi.C54_named`
* `Verif.Openapi.C54_terminates_partial`
* `Verif.Openapi.C54_violated`
* `Verif.Openapi.C55_outcome_partial`
* `Verif.Openapi.C55_supported`
* `Verif.Openapi.C55_violated`
* `Verif.Http.C56_answer_partial`
* `Verif.Http.C56_no_leak`
* `Verif.Http.C56_readable`
* `Verif.Http.C56_violated`
* `Verif.Http.C57_answer`
* `Verif.Http.C58_violated`
* `Verif.Http.C58_codes`
* `Verif.Http.C59_unchanged`
* `Verif.Http.C59_code`
* `Verif.Http.C59_violated`
* `Verif.Ws.C60_disconnect`
* `Verif.Ws.C61_refines`
* `Verif.Ws.C61_own_channel`
* `Verif.Ws.C61_isolated`
* `Verif.Ws.C61_open`
* `Verif.Ws.C61_call`
* `Verif.Ws.C61_unknown`
* `Verif.Ws.C61_loop`
* `Verif.Ws.C61_unreadable`
* `Verif.Ws.C62_unusable_partial`
* `Verif.Ws.C62_violated`
* `Verif.Ws.C63_arrives_partial`
* `Verif.Ws.C63_round_trip_partial`
* `Verif.Ws.C63_violated`
* `Verif.TestIO.C64_in_order`
* `Verif.TestIO.C64_eof`
* `Verif.TestIO.C64_progress`
* `Verif.TestIO.C64_written`
* `Verif.Storage.C68_compound_self_violated`
* `Verif.Storage.C68_compound_other_violated`
* `Verif.Storage.C68_compound_self_partial`
* `Verif.Storage.C69_isolation_violated`
* `Verif.Config.C70_named_violated`
* `Verif.Config.C70_no_panic_partial`
* `Verif.Enc.C71_violated`
* `Verif.Enc.C71_objects_violated`
* `Verif.Enc.C71_partial`
* `Verif.Enc.C72_violated`
* `Verif.Enc.C73_reencode`
* `Verif.Enc.C74_partial`
* `Verif.Enc.C74_violated`
* `Verif.Enc.C74_pairs_violated`
* `Verif.Enc.C75_partial`
* `Verif.Enc.C75_violated`
* `Verif.Enc.C75_duration_violated`
* `Verif.Enc.C76_marshal`
* `Verif.Enc.C76_unmarshal_partial`
* `Verif.Enc.C76_violated`
* `Verif.Enc.C77_partial`
* `Verif.Enc.C77_violated`
* `Verif.Api.C78_violated`
* `Verif.Api.C78_partial`
* `Verif.Http.C79_error_partial`
* `Verif.Http.C79_violated`
* `Verif.Http.C81_violated`
* `Verif.Http.C81_partial`
* `Verif.Http.C82_violated`
* `Verif.Http.C83_call_partial`
* `Verif.Http.C83_error_partial`
* `Verif.Http.C83_code_violated`
* `Verif.Http.C83_stale_violated`
* `Verif.Http.C84_violated`
* `Verif.Http.C84_partial`
* `Verif.Openapi.C86_violated`
* `Verif.Openapi.C87_described_partial`
* `Verif.Openapi.C87_violated`
* `Verif.Openapi.C88_documented`
* `Verif.Openapi.C88_resolves`
* `Verif.Openapi.C88_kept`
* `Verif.Openapi.C88_rest_ignored`
* `Verif.TestIO.C89_wakes_partial`
* `Verif.TestIO.C89_close_violated`
* `Verif.Ws.C91_violated`
* `Verif.Ws.C91_silent_partial`
* `Verif.Ws.C92_panic_partial`
* `Verif.Ws.C92_violated`
* `Verif.Ast.C98_no_source_violated`
* `Verif.Ast.C98_not_found_violated`
* `Verif.Utils.Stack.C99_short`
* `Verif.Utils.Stack.C99_func_name`
* `Verif.Utils.Stack.C100_module`
* `Verif.Utils.Stack.C100_sibling_violated`
* `Verif.Utils.Stack.C101_nearest`
* `Verif.Utils.Stack.C101_declared_partial`
* `Verif.Utils.Stack.C101_first_partial`
* `Verif.Utils.Stack.C101_comment_violated`
* `Verif.Test.C102_opposites`
* `Verif.Test.C102_equal`
* `Verif.Test.C102_contains`
* `Verif.Prom.C106_series`
* `Verif.Prom.C106_histogram`
* `Verif.Prom.C106_custom_order`
* `Verif.Prom.C106_custom`
* `Verif.Prom.C107_never_500_violated`
* `Verif.Prom.C107_truncated_200_violated`
* `Verif.Prom.C107_complete`
* `Verif.Prom.C108_desc_injects_violated`
* `Verif.Prom.C108_series_partial`
* `Verif.Enc.C109_slice`
* `Verif.Enc.C109_array`
* `Verif.Enc.C109_map`
* `Verif.Enc.C109_pointer_violated`
* `Verif.Enc.C109_struct_violated`
* `Verif.Enc.C110_partial`
* `Verif.Enc.C110_names_violated`
* `Verif.Enc.C110_go_names`
* `Verif.Openapi.C111_tidy`
* `Verif.Openapi.C111_slice`
* `Verif.Openapi.C111_map`
* `Verif.Openapi.C111_reference`
* `Verif.Openapi.C111_order_violated`
* `Verif.Prom.C112_sample`
* `Verif.Prom.C112_bucket`
* `Verif.Prom.C112_histogram`
* `Verif.Prom.C112_page`
* `Verif.Enc.C113_white_space`
* `Verif.Enc.C113_indent`
* `Verif.Enc.C113_same_nodes`
* `Verif.Enc.C114_exact`
* `Verif.Enc.C114_refused`
* `Verif.Enc.C114_document`
* `Verif.Test.C115_success_means_same`
* `Verif.Test.C115_partial`
* `Verif.Test.C115_texts_partial`
* `Verif.Test.C115_struct_violated`
* `Verif.Test.C115_failed_violated`
* `Verif.Test.C115_range_violated`
* `Verif.Test.C115_precision_violated`
* `Verif.Http.C116_count`
* `Verif.Http.C116_partial`
* `Verif.Http.C116_twice_violated`
* `Verif.Http.C116_panic_violated`
* `Verif.Http.Methods.C117_methods_violated`
* `Verif.Http.C117_violated`
* `Verif.Http.C117_partial`
* `Verif.Http.C118_registers`
* `Verif.Http.C118_kept`
* `Verif.Http.C118_documented`
* `Verif.Http.C118_reserved`
* `Verif.Http.C118_api_violated`
* `Verif.Http.C118_undocumented_violated`
* `Verif.Api.C119_test`
* `Verif.Api.C119_agrees_partial`
* `Verif.Api.C119_auth_violated`
* `Verif.Api.C119_state_violated`
* `Verif.Api.C119_int_violated`
* `Verif.Api.C119_float_violated`
* `Verif.Enc.Paths.C120_kept_violated`
* `Verif.Enc.Paths.C121_place_partial`
* `Verif.Enc.Paths.C121_keys_partial`
* `Verif.Enc.Paths.C121_begin_partial`
* `Verif.Enc.Paths.C121_map_violated`
* `Verif.Enc.Paths.C121_parent_violated`
* `Verif.Enc.Durations.C123_wrap_violated`
* `Verif.Enc.Durations.C123_panic_violated`
* `Verif.Ctx.Slog.C124_line_partial`
* `Verif.Ctx.Slog.C124_level_violated`
* `Verif.Ctx.Slog.C124_tag_violated`
* `Verif.Sync.C125_round_partial`
* `Verif.Sync.C125_error_partial`
* `Verif.Sync.C125_status_partial`
* `Verif.Sync.C125_nil_violated`
* `Verif.Sync.C125_value_violated`
* `Verif.Sync.C125_unhandled_violated`
* `Verif.Ws.Transport.C126_fragment_refused`
* `Verif.Ws.Transport.C126_write_partial`
* `Verif.Ws.Transport.C126_wrong_violated`
* `Verif.Openapi.Wire.C128_written_partial`
* `Verif.Openapi.Wire.C128_bytes_violated`
* `Verif.Openapi.Wire.C128_null_violated`
* `Verif.Openapi.Wire.C129_shown_partial`
* `Verif.Openapi.Wire.C129_zero_violated`
* `Verif.Openapi.Wire.C129_unsigned_violated`
* `Verif.Openapi.Wire.C129_range_violated`
* `Verif.Openapi.Wire.C129_trailing_violated`
* `Verif.Openapi.Wire.C129_nan_violated`
* `Verif.Openapi.Wire.C129_null_violated`
* `Verif.Openapi.Wire.C129_trim`
* `Verif.Example.C130_set_partial`
* `Verif.Example.C130_refused`
* `Verif.Example.C130_get_violated`
* `Verif.Example.C130_auth_violated`
* `Verif.Sync.Metrics.C131_exclusion`
* `Verif.Sync.Metrics.C131_reports`
* `Verif.Sync.Metrics.C131_progress`
* `Verif.Ctx.TagJson.C132_tag_json_partial`
* `Verif.Ctx.TagJson.C132_reported_partial`
* `Verif.Ctx.TagJson.C132_no_errors`
* `Verif.Ctx.TagJson.C132_tags_told`
* `Verif.Ctx.TagJson.C132_lost_violated`
* `Verif.Ctx.TagJson.C132_deep_violated`
* `Verif.Ctx.TagJson.C132_replaced_violated`
* `Verif.Ws.Serve.C134_twice_violated`
* `Verif.Lists.Heap.C135_split_partial`
* `Verif.Lists.Sort.C136_ints`
* `Verif.Enc.Ineff.C137_serial_partial`
* `Verif.Enc.Hooks.C138_raw`
* `Verif.Enc.Hooks.C138_raw_marshal_partial`
* `Verif.Enc.Hooks.C138_trailing_violated`
* `Verif.Enc.Hooks.C138_empty_violated`
* `Verif.Enc.Hooks.C138_raw_violated`
* `Verif.Enc.Hooks.C138_given`
* `Verif.Enc.Hooks.C138_round_partial`
* `Verif.Enc.Hooks.C138_null`
* `Verif.Enc.Hooks.C138_pointer_violated`
* `Verif.Enc.Hooks.C138_order_violated`
* `Verif.Enc.Hooks.C138_dropped_violated`
* `Verif.Enc.Rfc3339.C139_round_trip`
* `Verif.Enc.Rfc3339.C139_read`
* `Verif.Enc.Rfc3339.C139_distinct`
* `Verif.Enc.Rfc3339.C139_seconds_violated`
* `Verif.Enc.TimeRead.C139_valid`
* `Verif.Enc.TimeRead.C139_stable`
* `Verif.Enc.TimeRead.C139_calendar`
* `Verif.Enc.TimeRead.C139_days`
* `Verif.Enc.TimeRead.C139_instant`
* `Verif.Enc.DurRead.C140_units`
* `Verif.Enc.DurRead.C140_sum`
* `Verif.Enc.DurText.C140_text`
* `Verif.Enc.DurText.C140_round_trip`
* `Verif.Enc.DurText.C140_node`
* `Verif.Enc.DurText.C140_distinct`
* `Verif.Enc.DurText.C140_range`
* `Verif.Enc.C141_zero_partial`
* `Verif.Enc.C141_node`
* `Verif.Enc.C141_time_violated`
* `Verif.Enc.C141_secret_violated`
* `Verif.Enc.C141_field_partial`
* `Verif.Ws.Transport.C143_prefix`
* `Verif.Ws.Transport.C143_cut_partial`
* `Verif.Ws.Transport.C143_number_violated`
* `Verif.Enc.C145_refused_partial`
* `Verif.Enc.C145_malformed`
* `Verif.Enc.C145_keys`
* `Verif.Enc.C145_pointer_violated`
* `Verif.Enc.C145_interface_partial`
* `Verif.Enc.C145_interface_violated`
* `Verif.Enc.C145_null`
* `Verif.Enc.C145_taken`
* `Verif.Ws.Session.C146_session_partial`
* `Verif.Ws.Session.C146_all`
* `Verif.Ws.Session.C146_isolated`
* `Verif.Ws.Session.C146_replies_partial`
* `Verif.Ws.Session.C146_ping_violated`
* `Verif.Openapi.Served.C147_served`
* `Verif.Openapi.Served.C147_last`
* `Verif.Openapi.Served.C147_api_partial`
* `Verif.Openapi.Served.C147_resolves`
* `Verif.Openapi.Served.C147_body_violated`
* `Verif.Ws.Inspect.C148_name`
* `Verif.Ws.Inspect.C148_accepted_partial`
* `Verif.Ws.Inspect.C148_accepted_violated`
* `Verif.Ws.Inspect.C148_methods_partial`
* `Verif.Ws.Inspect.C148_map`
* `Verif.Ws.Inspect.C148_call_partial`
* `Verif.Ws.Inspect.C148_init_partial`
* `Verif.Ws.Inspect.C148_fields_partial`
* `Verif.Ws.Inspect.C148_copy_partial`
* `Verif.Ws.Inspect.C148_unexported_violated`
* `Verif.Ws.Inspect.C148_changed_violated`
* `Verif.Ws.Inspect.C148_name_violated`
* `Verif.Ws.Inspect.C148_result_violated`
* `Verif.Ws.Inspect.C148_variadic_violated`
* `Verif.Ws.Inspect.C148_registered_partial`
* `Verif.Ws.Inspect.C148_session_partial`
* `Verif.Ws.Inspect.C148_same_violated`
* `Verif.Prom.Conc.C149_scrape_partial`
* `Verif.Prom.Conc.C149_grows_partial`
* `Verif.Prom.Conc.C149_total`
* `Verif.Prom.Conc.C149_deterministic`
* `Verif.Prom.Conc.C149_progress`
* `Verif.Prom.Conc.C149_counter_partial`
* `Verif.Prom.Conc.C149_histogram_partial`
* `Verif.Prom.Conc.C149_moment_violated`
* `Verif.Enc.Keys.C152_key`
* `Verif.Enc.Keys.C152_written`
* `Verif.Enc.Keys.C152_defined`
* `Verif.Enc.Keys.C152_map_partial`
* `Verif.Enc.Keys.C152_float_violated`
* `Verif.Enc.Keys.C152_uint_violated`
* `Verif.Enc.Keys.C152_time_violated`
* `Verif.Enc.Keys.C152_any_violated`
* `Verif.Enc.Keys.C152_method_violated`
* `Verif.Enc.Keys.C152_method`
* `Verif.Api.Isolate.C153_alone_partial`
* `Verif.Api.Isolate.C153_flat_partial`
* `Verif.Test.Contexts.C155_cancelled`
* `Verif.Test.Contexts.C155_logs`
* `Verif.Test.Contexts.C155_redacted_violated`
* `Verif.Caches.Odd.C156_lru_answers`
* `Verif.Caches.Odd.C156_lru_misses`
* `Verif.Caches.Odd.C156_lru_index_partial`
* `Verif.Caches.Odd.C156_lru_index_violated`
* `Verif.Config.Shared.C157_alone`
* `Verif.Config.Shared.C157_keeps`
* `Verif.Config.Shared.C157_independent_partial`
* `Verif.Config.Shared.C157_shared_violated`
* `Verif.Config.Shared.C157_layered_violated`
* `Verif.Ws.TestCtx.C158_unopened_violated`
* `Verif.Ws.TestCtx.Race.C158_race_partial`
* `Verif.Storage.Conc.C159_linearizable_partial`
* `Verif.Storage.Conc.C159_keys`
* `Verif.Storage.Conc.C159_order`
* `Verif.Storage.Conc.C159_realtime`
* `Verif.Storage.Conc.C159_served`
* `Verif.Storage.Conc.C159_excludes`
* `Verif.Storage.Conc.C159_moment_violated`
* `Verif.Ws.TestWire.C161_session_partial`
* `Verif.Ws.TestWire.C161_replies_partial`
* `Verif.Ws.TestWire.C161_disconnect_violated`
* `Verif.Ws.TestWire.C161_float_violated`
* `Verif.Ws.TestWire.C161_lost_violated`
* `Verif.Ws.TestWire.C161_crash_violated`
* `Verif.Ws.TestWire.C161_typed_partial`
* `Verif.Ws.TestWire.C161_int_violated`
* `Verif.Enc.Heap.C162_refines`
* `Verif.Enc.Heap.C162_frame`
* `Verif.Enc.Heap.C162_own_partial`
* `Verif.Enc.Heap.C162_twice_partial`
* `Verif.Enc.Heap.C162_variable`
* `Verif.Enc.Heap.C162_list_violated`
* `Verif.Enc.Heap.C162_map_violated`
* `Verif.Enc.Heap.C163_refines`
* `Verif.Enc.Heap.C163_own_partial`
* `Verif.Enc.Heap.C163_copy_partial`
* `Verif.Enc.Heap.C163_map_copied`
* `Verif.Enc.Heap.C163_list_violated`
* `Verif.Enc.Heap.C163_test_violated`
* `Verif.Caches.Conc.C164_answers`
* `Verif.Caches.Conc.C164_state`
* `Verif.Caches.Conc.C164_fifo`
* `Verif.Caches.Conc.C164_string_partial`
* `Verif.Http.Bodies.C165_left_iff`
* `Verif.Http.Bodies.C165_order_partial`
* `Verif.Http.Bodies.C165_no_content`
* `Verif.Http.Bodies.C165_held`
* `Verif.Http.Bodies.C165_one_partial`
* `Verif.Http.Bodies.C165_violated`
* `Verif.Http.Bodies.C165_server_violated`
* `Verif.Config.Defaults.C166_default_partial`
* `Verif.Config.Defaults.C166_comma_violated`
* `Verif.Config.Defaults.C166_list_violated`
* `Verif.Config.Defaults.C166_empty_violated`
* `Verif.Openapi.Marshallers.C167_seen_partial`
* `Verif.Openapi.Marshallers.C167_panics`
* `Verif.Openapi.Marshallers.C167_zero_partial`
* `Verif.Openapi.Marshallers.C167_all`
* `Verif.Openapi.Marshallers.C167_negative_violated`
* `Verif.Openapi.Marshallers.C167_shape_violated`
* `Verif.Openapi.Marshallers.C167_null_violated`
* `Verif.Openapi.Marshallers.C167_pointer_violated`
* `Verif.Prom.Reg.C168_answers`
* `Verif.Prom.Reg.C168_once_partial`
* `Verif.Prom.Reg.C168_range_partial`
* `Verif.Prom.Reg.C168_later_partial`
* `Verif.Prom.Reg.C168_nil_violated`
* `Verif.Sync.Race.C170_free_partial`
* `Verif.Sync.Race.C170_rest_partial`
* `Verif.Sync.Race.C170_string_violated`
* `Verif.Sync.Race.C170_counter_violated`
* `Verif.Sync.Race.C170_record_violated`
* `Verif.Sync.Race.C170_slice_violated`
* `Verif.Sync.Race.C170_document_violated`
* `Verif.Sync.Race.C170_close_violated`
* `Verif.Sync.Race.C170_maps_violated`
* `Verif.Sync.Race.C170_readall_partial`
* `Verif.Sync.Race.C171_caches_partial`
* `Verif.Sync.Race.C171_store_metrics`
* `Verif.Sync.Race.C171_self_violated`
* `Verif.Sync.Race.C171_cross_violated`
* `Verif.Enc.Native.C173_builtin_partial`
* `Verif.Enc.Native.C173_range_violated`
* `Verif.Enc.Native.C173_place_partial`
* `Verif.Enc.Native.C173_place_violated`
* `Verif.Enc.Native.C173_digits`
* `Verif.Enc.Native.C173_digits_violated`
* `Verif.Enc.Native.C173_numbers`
* `Verif.Http.Methods.C174_refused`
* `Verif.Http.Methods.C174_only`
* `Verif.Http.Methods.C174_ignored_violated`
* `Verif.Http.Methods.C174_method_violated`
* `Verif.Http.Methods.C174_type_violated`
* `Verif.Http.Methods.C174_head_violated`
* `Verif.Http.Methods.C174_bare_violated`
* `Verif.Ws.Told.C175_text_partial`
* `Verif.Ws.Told.C175_new_partial`
* `Verif.Ws.Told.C175_argument_violated`
* `Verif.Ws.Told.C175_plain_violated`
* `Verif.Ws.Told.C175_internal_violated`
* `Verif.Ws.Told.C175_own_violated`
* `Verif.Ws.Told.C175_unsent_violated`
* `Verif.Ws.Told.C175_disconnect_partial`
* `Verif.Ws.Told.C175_http_violated`
* `Verif.Ws.Told.C175_silent_violated`
* `Verif.Enc.Wire8.C176_order`
* `Verif.Enc.Wire8.C176_wire`
* `Verif.Enc.Wire8.C176_bytes_partial`
* `Verif.Enc.Wire8.C176_string_violated`
* `Verif.Enc.Wire8.C176_keys_violated`
* `Verif.Enc.Wire8.C176_text_law`
* `Verif.Utf8.C176_bytes`
* `Verif.Utf8.C176_utf8`
* `Verif.Utf8.C176_valid`
* `Verif.Utf8.C176_text_violated`
* `Verif.Http.Short.C177_bytes`
* `Verif.Http.Short.C177_whole`
* `Verif.Http.Short.C177_cut_partial`
* `Verif.Http.Short.C177_empty_violated`
* `Verif.Http.Short.C177_call_violated`
* `Verif.Enc.Nils.C178_text`
* `Verif.Enc.Nils.C178_list_violated`
* `Verif.Enc.Nils.C178_marshal`
* `Verif.Enc.Nils.C178_marshal_violated`
* `Verif.Enc.Nils.C178_into_partial`
* `Verif.Enc.Nils.C178_pointer_violated`
* `Verif.Enc.Nils.C178_node_violated`
* `Verif.Enc.Nils.C178_elems`
* `Verif.Enc.Nils.C178_slice_violated`
* `Verif.Enc.Nils.C178_fields`
* `Verif.Enc.Nils.C178_field_violated`
* `Verif.Http.Redirect.C179_chain`
* `Verif.Http.Redirect.C179_keeps_partial`
* `Verif.Http.Redirect.C179_limit`
* `Verif.Http.Redirect.C179_requests`
* `Verif.Http.Redirect.C179_nowhere`
* `Verif.Http.Redirect.C179_inputs_violated`
* `Verif.Http.Redirect.C179_answer_violated`
* `Verif.Http.Address.C180_arrives_partial`
* `Verif.Http.Address.C180_routed_partial`
* `Verif.Http.Address.C180_nobase`
* `Verif.Http.Address.C180_base_violated`
* `Verif.Http.Address.C180_unclean_violated`
* `Verif.Http.Address.C180_dots_violated`
* `Verif.Http.Address.Dots.C180_iff_partial`
* `Verif.Http.Address.Dots.C180_dead_violated`
* `Verif.Enc.Again.C181_status`
* `Verif.Enc.Again.C181_again`
* `Verif.Enc.Again.C181_fresh`
* `Verif.Enc.Again.C181_joined`
* `Verif.Enc.Again.C181_order`
* `Verif.Enc.Again.C181_pointer_violated`
* `Verif.Enc.Versions.C182_node`
* `Verif.Enc.Versions.C182_json`
* `Verif.Enc.Versions.C182_fields`
* `Verif.Api.Skew.C183_request`
* `Verif.Api.Skew.C183_response`
* `Verif.Api.Skew.C183_call`
* `Verif.Api.Skew.C183_refused`
* `Verif.Http.Skew.C183_http`
* `Verif.Http.Skew.C183_http_refused`
* `Verif.Ws.Shared.C184_alone_partial`
* `Verif.Ws.Shared.C184_flat_partial`
* `Verif.Http.Requests.C185_tags_partial`
* `Verif.Http.Requests.C185_differ_partial`
* `Verif.Http.Requests.C185_same_violated`
* `Verif.Http.Requests.C185_empty_violated`
* `Verif.Http.Requests.C185_logged_partial`
* `Verif.Http.Requests.C185_ws_violated`
* `Verif.Http.Requests.C185_warning_violated`
* `Verif.Http.Logged.C187_failed_partial`
* `Verif.Http.Logged.C187_kept_partial`
* `Verif.Http.Logged.C187_sent_partial`
* `Verif.Http.Logged.C187_gzip_partial`
* `Verif.Http.Logged.C187_gzip_violated`
* `Verif.Http.Logged.C187_unsent_violated`
* `Verif.Http.Logged.C187_ws_violated`
* `Verif.Http.Logged.C187_panic_partial`
* `Verif.Ws.Skew.C189_reply_partial`
* `Verif.Ws.Skew.C189_call_partial`
* `Verif.Ws.Skew.C189_lost_partial`
* `Verif.Ws.Skew.C189_gained_partial`
* `Verif.Ws.Skew.C189_open_partial`
* `Verif.Ws.Skew.C189_unknown_violated`
* `Verif.Caches.Panics.C190_lru_partial`
* `Verif.Caches.Panics.C190_mem_partial`
* `Verif.Caches.Panics.C190_request_partial`
* `Verif.Caches.Panics.C190_next_partial`
* `Verif.Ws.Kept.C191_names_partial`
* `Verif.Ws.Kept.C191_forever_violated`
* `Verif.Ws.Kept.C191_failed_violated`
* `Verif.Ws.Kept.C191_many_violated`

## propext, Quot.sound (209 theorems)

* `Verif.Caches.C05_lru_violated`
* `Verif.Caches.C06_mem_refines`
* `Verif.Caches.C08_hit_free`
* `Verif.Lists.C11_arrange_spec`
* `Verif.Lists.Equal.C12_set_partial`
* `Verif.Lists.Equal.C12_addUnique_partial`
* `Verif.Lists.Equal.C12_nan_violated`
* `Verif.Lists.C12_contains`
* `Verif.Lists.C12_addUnique`
* `Verif.OMap.C13_refines_assoc_list`
* `Verif.OMap.C13_spec_lookup`
* `Verif.OMap.C13_spec_order`
* `Verif.OMap.C13_keys_distinct`
* `Verif.OMap.C14_range`
* `Verif.Sync.C16_refines_map`
* `Verif.Sync.C16_isEmpty`
* `Verif.Sync.C16_range`
* `Verif.Sync.C16_rangeErr`
* `Verif.Sync.C16_map`
* `Verif.Sync.C16_nil_panics`
* `Verif.Utils.C17_result`
* `Verif.Utils.C17_uncancelled`
* `Verif.Utils.C17_bytes_with_error_dropped`
* `Verif.Utils.C17_close_once`
* `Verif.Utils.C17_returns`
* `Verif.Errors.C18_error_gate`
* `Verif.Errors.C19_wrap_adds_iff_absent`
* `Verif.Errors.C19_innermost_stack`
* `Verif.Errors.C19_existing_kept`
* `Verif.Errors.C19_causes_kept`
* `Verif.Ctx.C21_range`
* `Verif.Ctx.C21_extract`
* `Verif.Ctx.C22_cancelled_iff`
* `Verif.Ctx.C22_cause_violated`
* `Verif.Ctx.C25_redacted_noninterference`
* `Verif.Ctx.C25_rewrites_in_order`
* `Verif.Ctx.C25_no_loggable_left`
* `Verif.Prom.C26_injective`
* `Verif.Prom.C26_arity`
* `Verif.Prom.C26_empty_key`
* `Verif.Prom.C27_cumulative`
* `Verif.Prom.C28_scrape_partial`
* `Verif.Prom.C29_counter_panics_iff`
* `Verif.Prom.C30_first_registration_kept`
* `Verif.Prom.C30_range`
* `Verif.Shutdown.C31_never_undone`
* `Verif.Shutdown.C31_five_seconds`
* `Verif.Shutdown.C31_no_panic`
* `Verif.Shutdown.C31_begin_closes`
* `Verif.Shutdown.C32_counter`
* `Verif.Shutdown.C32_release_panics_iff`
* `Verif.Shutdown.C32_closed_after_zero`
* `Verif.Shutdown.C32_closed_stays`
* `Verif.Shutdown.C32_open_while_held`
* `Verif.Shutdown.C32_zero_wakes`
* `Verif.Shutdown.C32_zero_closes`
* `Verif.Shutdown.C33_returns_only_without_holds`
* `Verif.Shutdown.C33_held_never_returns`
* `Verif.Storage.C34_get`
* `Verif.Config.C38_parts`
* `Verif.Enc.C39_idempotent`
* `Verif.Enc.C46_unsigned`
* `Verif.Pipe.C47_fifo`
* `Verif.Pipe.C47_closed`
* `Verif.Pipe.C47_eof`
* `Verif.Pipe.C47_ready`
* `Verif.Enc.C48_distinct`
* `Verif.Enc.C48_first_last`
* `Verif.Api.C53_split`
* `Verif.Http.C58_forwarded`
* `Verif.Http.C58_panics`
* `Verif.Http.C58_measured_partial`
* `Verif.Http.C58_switching`
* `Verif.Http.C58_nested`
* `Verif.Ws.C60_sequential`
* `Verif.Ws.C60_closed`
* `Verif.Ctx.C65_repeat_tags_partial`
* `Verif.Prom.C66_exposition_violated`
* `Verif.Prom.C66_exposition_partial`
* `Verif.Shutdown.C67_no_reuse_partial`
* `Verif.Storage.C69_history_partial`
* `Verif.Enc.C73_decoded`
* `Verif.Http.C80_call`
* `Verif.Http.C80_ready`
* `Verif.Http.Listen.C85_terminates`
* `Verif.TestIO.C89_readers_violated`
* `Verif.Ws.Test.C93_violated`
* `Verif.Ctx.C94_typed_keys_safe`
* `Verif.Ctx.C95_earliest`
* `Verif.Ctx.C95_never_extended`
* `Verif.Ast.C96_caller`
* `Verif.Ast.C96_unique`
* `Verif.Ast.C98_partial`
* `Verif.Utils.Stack.C99_stack`
* `Verif.Utils.Stack.C100_other`
* `Verif.Test.C103_newline_violated`
* `Verif.Test.C103_injective_partial`
* `Verif.Test.C103_one_line_partial`
* `Verif.Test.C104_nil_partial`
* `Verif.Test.C105_deque`
* `Verif.Prom.C106_prefix`
* `Verif.Prom.C108_labels_partial`
* `Verif.Enc.C113_blank`
* `Verif.Http.C118_routing`
* `Verif.Enc.Paths.C120_during_partial`
* `Verif.Enc.Factory.C122_made_violated`
* `Verif.Enc.Factory.C122_error_partial`
* `Verif.Enc.Factory.C122_other_partial`
* `Verif.Enc.Durations.C123_exact_partial`
* `Verif.Ctx.Slog.C124_set_partial`
* `Verif.Ctx.Slog.C124_reset_violated`
* `Verif.Ws.Transport.C126_whole_partial`
* `Verif.Ws.Transport.C126_fragment_violated`
* `Verif.Ws.Transport.C126_ping_violated`
* `Verif.Http.Graceful.C127_sockets_partial`
* `Verif.Http.Graceful.C127_requests_violated`
* `Verif.Http.Graceful.C127_idle_violated`
* `Verif.Http.Graceful.C127_cancel_partial`
* `Verif.Example.Race.C130_serial_partial`
* `Verif.Example.Race.C130_race_violated`
* `Verif.Example.Race.C130_reader_violated`
* `Verif.Example.Race.C130_lost_violated`
* `Verif.Sync.Metrics.C131_order_violated`
* `Verif.Ws.Writers.C133_prefix_partial`
* `Verif.Ws.Writers.C133_frames_partial`
* `Verif.Ws.Writers.C133_writes_partial`
* `Verif.Ws.Writers.C133_overlap_violated`
* `Verif.Ws.Serve.C134_hold`
* `Verif.Ws.Serve.C134_count`
* `Verif.Ws.Serve.C134_connect`
* `Verif.Ws.Serve.C134_panics`
* `Verif.Ws.Serve.C134_closed`
* `Verif.Ws.Serve.C134_told_partial`
* `Verif.Ws.Serve.C134_handshake_partial`
* `Verif.Lists.Heap.C135_copy`
* `Verif.Lists.Heap.C135_flatten`
* `Verif.Lists.Heap.C135_addUnique_partial`
* `Verif.Lists.Sort.C136_sort`
* `Verif.Lists.Sort.C136_sortFunc_partial`
* `Verif.Lists.Sort.C136_pairs`
* `Verif.Enc.Ineff.C137_race_violated`
* `Verif.Enc.Ineff.C137_reader_violated`
* `Verif.Enc.Ineff.C137_twice_violated`
* `Verif.Enc.Ineff.C137_told`
* `Verif.Enc.Ineff.C137_known_partial`
* `Verif.Enc.Hooks.C138_nil_violated`
* `Verif.Enc.Hooks.C138_meaning`
* `Verif.Enc.Rfc3339.C139_years_violated`
* `Verif.Http.CallBody.C142_body_partial`
* `Verif.Http.CallBody.C142_overwrite_violated`
* `Verif.Http.CallBody.C142_alias_violated`
* `Verif.Http.CallBody.C142_timeout`
* `Verif.Ws.Transport.C143_empty_violated`
* `Verif.Ws.EndLog.C144_reader_partial`
* `Verif.Ws.EndLog.C144_polite_violated`
* `Verif.Ws.EndLog.C144_nil_violated`
* `Verif.Enc.C145_kind`
* `Verif.Prom.Conc.C149_once`
* `Verif.Ws.TestLife.C150_ends_partial`
* `Verif.Ws.TestLife.C150_results`
* `Verif.Ws.TestLife.C150_unknown_violated`
* `Verif.Ws.TestLife.C150_closed_violated`
* `Verif.Ws.TestLife.C150_leak_violated`
* `Verif.Ws.TestLife.C150_nested_violated`
* `Verif.Caches.Wait.C151_ends_partial`
* `Verif.Caches.Wait.C151_plain_partial`
* `Verif.Caches.Wait.C151_waits_partial`
* `Verif.Caches.Wait.C151_whole_violated`
* `Verif.Enc.Keys.C152_agrees`
* `Verif.OMap.Reenter.C154_walk_partial`
* `Verif.OMap.Reenter.C154_exact`
* `Verif.OMap.Reenter.C154_slots_violated`
* `Verif.Test.Contexts.C155_reports_partial`
* `Verif.Caches.Odd.C156_lru_invalidate`
* `Verif.Caches.Odd.C156_lru_kept`
* `Verif.Caches.Odd.C156_mem_answers`
* `Verif.Caches.Odd.C156_mem_kept`
* `Verif.Caches.Odd.C156_mem_violated`
* `Verif.OMap.Odd.C156_omap_answers`
* `Verif.OMap.Odd.C156_omap_found_partial`
* `Verif.OMap.Odd.C156_omap_violated`
* `Verif.OMap.Odd.C156_omap_kept`
* `Verif.Ws.TestCtx.C158_fifo`
* `Verif.Ws.TestCtx.C158_closed`
* `Verif.Ws.TestCtx.C158_close_violated`
* `Verif.Errors.Compare.C160_found_partial`
* `Verif.Errors.Compare.C160_passed_partial`
* `Verif.Errors.Compare.C160_http_violated`
* `Verif.Errors.Compare.C160_targets`
* `Verif.Caches.Conc.C164_once`
* `Verif.Caches.Conc.C164_mem`
* `Verif.Http.Bodies.C165_fetch`
* `Verif.TestIO.Shared.C169_bytes_partial`
* `Verif.TestIO.Shared.C169_reuse_violated`
* `Verif.TestIO.Shared.C169_late_violated`
* `Verif.Sync.Race.C170_cancel_violated`
* `Verif.Http.Wrapped.C172_transparent_partial`
* `Verif.Http.Wrapped.C172_flush_violated`
* `Verif.Http.Requests.C186_request`
* `Verif.Http.Requests.C186_call`
* `Verif.Http.Requests.C186_ws`
* `Verif.Http.Requests.C186_others`
* `Verif.Http.Requests.C186_deadline`
* `Verif.Sync.Stall.C188_free_partial`
* `Verif.Sync.Stall.C188_holders_partial`
* `Verif.Sync.Stall.C188_apart_partial`
* `Verif.Sync.Stall.C188_scrape_violated`
* `Verif.Sync.Stall.C188_cache_violated`
* `Verif.Sync.Stall.C188_store_violated`
