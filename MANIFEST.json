{
 "claims": [
  {
   "property": "C01",
   "status": "proved",
   "theorems": [
    "Verif.Caches.C01_lru_sound",
    "Verif.Caches.C01_negative_budget_panics"
   ],
   "note": ""
  },
  {
   "property": "C02",
   "status": "proved",
   "theorems": [
    "Verif.Caches.C02_get_cases",
    "Verif.Caches.C02_hit_is_last_stored"
   ],
   "note": ""
  },
  {
   "property": "C03",
   "status": "proved",
   "theorems": [
    "Verif.Caches.C03_invalidate"
   ],
   "note": ""
  },
  {
   "property": "C04",
   "status": "proved",
   "theorems": [
    "Verif.Caches.C04_eviction_order",
    "Verif.Caches.C04_refines_fifo"
   ],
   "note": ""
  },
  {
   "property": "C05",
   "status": "partial",
   "theorems": [
    "Verif.Caches.C05_hit_changes_nothing",
    "Verif.Caches.C05_lru_violated"
   ],
   "note": "The code violates this. The negation is proved with a concrete trace, and it is proved for all states that a hit changes nothing; the true eviction order is C04."
  },
  {
   "property": "C06",
   "status": "proved",
   "theorems": [
    "Verif.Caches.C06_mem_refines"
   ],
   "note": ""
  },
  {
   "property": "C07",
   "status": "proved",
   "theorems": [
    "Verif.Caches.C07_served_until_expiry",
    "Verif.Caches.C07_otherwise_fetches",
    "Verif.Caches.C07_hit_is_latest_fetch",
    "Verif.Caches.C07_no_panic"
   ],
   "note": ""
  },
  {
   "property": "C08",
   "status": "proved",
   "theorems": [
    "Verif.Caches.C08_fetch_exclusive",
    "Verif.Caches.C08_hit_sound",
    "Verif.Caches.C08_hit_free",
    "Verif.Caches.C08_redundant_fetch_at_most_once",
    "Verif.Caches.C08_single_flight_violated"
   ],
   "note": "Proved for every interleaving: no panic, at most one fetch in flight per entry, hits return a completed fetch for their key, at most one redundant fetch per entry. The stronger single-flight claim named in the statement is refuted by an explicit schedule, as the property itself says."
  },
  {
   "property": "C09",
   "status": "proved",
   "theorems": [
    "Verif.Lists.C09_split_panics_iff",
    "Verif.Lists.C09_split_spec"
   ],
   "note": ""
  },
  {
   "property": "C10",
   "status": "proved",
   "theorems": [
    "Verif.Lists.C10_reverse",
    "Verif.Lists.C10_reverse_involutive"
   ],
   "note": ""
  },
  {
   "property": "C11",
   "status": "proved",
   "theorems": [
    "Verif.Lists.C11_permute",
    "Verif.Lists.C11_arrange_spec"
   ],
   "note": ""
  },
  {
   "property": "C12",
   "status": "partial",
   "theorems": [
    "Verif.Lists.Equal.C12_set_partial",
    "Verif.Lists.Equal.C12_addUnique_partial",
    "Verif.Lists.Equal.C12_nan_violated",
    "Verif.Lists.Equal.C12_addUnique_nan_violated",
    "Verif.Lists.C12_contains",
    "Verif.Lists.C12_addUnique",
    "Verif.Lists.C12_set"
   ],
   "note": "Does not hold of the code as stated; the negation is proved: fails for an element that is not equal to itself (NaN): every `Add` adds it again, it is never found, and can not be removed. fails: `AddUnique` of NaN adds it every time. What is proved instead: for elements equal to themselves: after any calls `Add` returns whether no element equal to it was in the set, `Has` and `Remove` whether one was; `All` lists no two equal elements, and one equal to each element in the set. for elements equal to themselves: `Contains` finds an equal element, and after `AddUnique` there is one; it adds nothing if there was one."
  },
  {
   "property": "C13",
   "status": "proved",
   "theorems": [
    "Verif.OMap.C13_refines_assoc_list",
    "Verif.OMap.C13_spec_lookup",
    "Verif.OMap.C13_spec_order",
    "Verif.OMap.C13_keys_distinct"
   ],
   "note": ""
  },
  {
   "property": "C14",
   "status": "proved",
   "theorems": [
    "Verif.OMap.C14_range"
   ],
   "note": ""
  },
  {
   "property": "C15",
   "status": "proved",
   "theorems": [
    "Verif.Sync.C15_no_panic",
    "Verif.Sync.C15_mutual_exclusion",
    "Verif.Sync.C15_true_means_held",
    "Verif.Sync.C15_held_until_unlock",
    "Verif.Sync.C15_false_releases",
    "Verif.Sync.C15_false_closes",
    "Verif.Sync.C15_never_lost"
   ],
   "note": ""
  },
  {
   "property": "C16",
   "status": "proved",
   "theorems": [
    "Verif.Sync.C16_refines_map",
    "Verif.Sync.C16_isEmpty",
    "Verif.Sync.C16_range",
    "Verif.Sync.C16_rangeErr",
    "Verif.Sync.C16_map",
    "Verif.Sync.C16_nil_panics"
   ],
   "note": ""
  },
  {
   "property": "C17",
   "status": "proved",
   "theorems": [
    "Verif.Utils.C17_result",
    "Verif.Utils.C17_uncancelled",
    "Verif.Utils.C17_bytes_with_error_dropped",
    "Verif.Utils.C17_close_once",
    "Verif.Utils.C17_cancel_stops",
    "Verif.Utils.C17_goroutine_progress",
    "Verif.Utils.C17_returns"
   ],
   "note": ""
  },
  {
   "property": "C18",
   "status": "proved",
   "theorems": [
    "Verif.Errors.C18_error_gate"
   ],
   "note": ""
  },
  {
   "property": "C19",
   "status": "proved",
   "theorems": [
    "Verif.Errors.C19_wrap_nil",
    "Verif.Errors.C19_wrap_adds_iff_absent",
    "Verif.Errors.C19_innermost_stack",
    "Verif.Errors.C19_existing_kept",
    "Verif.Errors.C19_causes_kept",
    "Verif.Errors.C19_message"
   ],
   "note": ""
  },
  {
   "property": "C20",
   "status": "proved",
   "theorems": [
    "Verif.Errors.C20_error_code",
    "Verif.Errors.C20_outermost_wins"
   ],
   "note": ""
  },
  {
   "property": "C21",
   "status": "proved",
   "theorems": [
    "Verif.Ctx.C21_range",
    "Verif.Ctx.C21_range_nil",
    "Verif.Ctx.C21_extract"
   ],
   "note": ""
  },
  {
   "property": "C22",
   "status": "partial",
   "theorems": [
    "Verif.Ctx.C22_values_kept",
    "Verif.Ctx.C22_not_cancelled",
    "Verif.Ctx.C22_cancelled_iff",
    "Verif.Ctx.C22_derived_own_only",
    "Verif.Ctx.C22_cause_leaks",
    "Verif.Ctx.C22_cause_violated"
   ],
   "note": "Does not hold of the code as stated; the negation is proved: a reachable history in which a detached context has no error but reports a cause."
  },
  {
   "property": "C23",
   "status": "partial",
   "theorems": [
    "Verif.Ctx.C23_siblings_distinct_violated",
    "Verif.Ctx.C23_nested_distinct_partial",
    "Verif.Ctx.C23_untracked_uuid"
   ],
   "note": "Does not hold of the code as stated; the negation is proved: in every context made by the package's calls that has a tracking id, any two spans get the same tracking id. What is proved instead: nested spans extend the id of their parent, so all of them are distinct, for any depth."
  },
  {
   "property": "C24",
   "status": "partial",
   "theorems": [
    "Verif.Ctx.C24_child_uses_logger",
    "Verif.Ctx.C24_parent_unaffected_violated",
    "Verif.Ctx.C24_witness_violated",
    "Verif.Ctx.C24_unconfigured_partial",
    "Verif.Ctx.C24_child_keeps_rest",
    "Verif.Ctx.C24_other_cell_partial",
    "Verif.Ctx.C24_other_cell_helper_partial"
   ],
   "note": "Does not hold of the code as stated; the negation is proved: when the context already has a configuration, `WithLogFunc` on it changes the logger of *every* context that shares the configuration: the parent itself and all its siblings. a reachable state where it does change: the parent logged with 1, and logs with 2 after its child was given 2. What is proved instead: when the context has no configuration yet, `WithLogFunc` and `WithHelper` leave the logger and helper of every existing context unchanged. a logger set on a context never changes contexts whose configuration is another cell. the same for a helper."
  },
  {
   "property": "C25",
   "status": "proved",
   "theorems": [
    "Verif.Ctx.C25_redacted_noninterference",
    "Verif.Ctx.C25_rewrites_in_order",
    "Verif.Ctx.C25_no_loggable_left"
   ],
   "note": ""
  },
  {
   "property": "C26",
   "status": "proved",
   "theorems": [
    "Verif.Enc.Wire8.C26_bytes",
    "Verif.Prom.C26_injective",
    "Verif.Prom.C26_arity",
    "Verif.Prom.C26_empty_key"
   ],
   "note": ""
  },
  {
   "property": "C27",
   "status": "proved",
   "theorems": [
    "Verif.Prom.C27_histogram",
    "Verif.Prom.C27_cumulative"
   ],
   "note": ""
  },
  {
   "property": "C28",
   "status": "partial",
   "theorems": [
    "Verif.Prom.C28_scrape_violated",
    "Verif.Prom.C28_scrape_partial",
    "Verif.Prom.C28_no_bounds_partial"
   ],
   "note": "Does not hold of the code as stated; the negation is proved: with at least one bound, a scrape between the creation of a series and its first observation panics. What is proved instead: schedules in which every printed series has completed an observation never panic, whatever else is interleaved: any number of other creations, observations and scrapes, in any order. without bounds a scrape never panics."
  },
  {
   "property": "C29",
   "status": "proved",
   "theorems": [
    "Verif.Prom.C29_counter",
    "Verif.Prom.C29_gauge",
    "Verif.Prom.C29_counter_panics_iff"
   ],
   "note": ""
  },
  {
   "property": "C30",
   "status": "proved",
   "theorems": [
    "Verif.Prom.C30_register",
    "Verif.Prom.C30_first_registration_kept",
    "Verif.Prom.C30_range"
   ],
   "note": ""
  },
  {
   "property": "C31",
   "status": "proved",
   "theorems": [
    "Verif.Shutdown.C31_closed_once",
    "Verif.Shutdown.C31_never_undone",
    "Verif.Shutdown.C31_five_seconds",
    "Verif.Shutdown.C31_no_panic",
    "Verif.Shutdown.C31_begin_closes"
   ],
   "note": ""
  },
  {
   "property": "C32",
   "status": "partial",
   "theorems": [
    "Verif.Shutdown.C32_counter",
    "Verif.Shutdown.C32_release_panics_iff",
    "Verif.Shutdown.C32_closed_after_zero",
    "Verif.Shutdown.C32_closed_stays",
    "Verif.Shutdown.C32_open_while_held",
    "Verif.Shutdown.C32_at_close_violated",
    "Verif.Shutdown.C32_zero_wakes",
    "Verif.Shutdown.C32_zero_closes"
   ],
   "note": "Does not hold of the code as stated; the negation is proved: (the strongest form is violated): the channel may close at a moment when a hold is outstanding, if the hold was taken between the moment without holds and the close."
  },
  {
   "property": "C33",
   "status": "proved",
   "theorems": [
    "Verif.Shutdown.C33_escalation",
    "Verif.Shutdown.C33_first_signal_begins",
    "Verif.Shutdown.C33_returns_only_without_holds",
    "Verif.Shutdown.C33_held_never_returns"
   ],
   "note": ""
  },
  {
   "property": "C34",
   "status": "proved",
   "theorems": [
    "Verif.Storage.C34_get"
   ],
   "note": ""
  },
  {
   "property": "C35",
   "status": "proved",
   "theorems": [
    "Verif.Storage.C35_range",
    "Verif.Storage.C35_each_once",
    "Verif.Storage.C35_no_filters"
   ],
   "note": ""
  },
  {
   "property": "C36",
   "status": "proved",
   "theorems": [
    "Verif.Storage.C36_equal",
    "Verif.Storage.C36_not_equal",
    "Verif.Storage.C36_unsupported"
   ],
   "note": ""
  },
  {
   "property": "C37",
   "status": "proved",
   "theorems": [
    "Verif.Config.C37_from",
    "Verif.Config.C37_failure"
   ],
   "note": ""
  },
  {
   "property": "C38",
   "status": "proved",
   "theorems": [
    "Verif.Config.C38_bool",
    "Verif.Config.C38_int",
    "Verif.Config.C38_string",
    "Verif.Config.C38_list",
    "Verif.Config.C38_parts",
    "Verif.Config.C38_empty_keeps",
    "Verif.Config.C38_map",
    "Verif.Config.C38_other",
    "Verif.Config.C38_methods"
   ],
   "note": ""
  },
  {
   "property": "C39",
   "status": "proved",
   "theorems": [
    "Verif.Enc.C39_round_trip",
    "Verif.Enc.C39_plain",
    "Verif.Enc.C39_idempotent"
   ],
   "note": ""
  },
  {
   "property": "C40",
   "status": "proved",
   "theorems": [
    "Verif.Enc.C40_round_trip"
   ],
   "note": ""
  },
  {
   "property": "C41",
   "status": "proved",
   "theorems": [
    "Verif.Enc.C41_round_trip"
   ],
   "note": ""
  },
  {
   "property": "C42",
   "status": "proved",
   "theorems": [
    "Verif.Enc.Failing.C42_refusing",
    "Verif.Enc.Failing.C42_refused",
    "Verif.Enc.C42_only_mentioned",
    "Verif.Enc.C42_unknown_ignored",
    "Verif.Enc.C42_reported"
   ],
   "note": ""
  },
  {
   "property": "C43",
   "status": "partial",
   "theorems": [
    "Verif.Enc.C43_never_written",
    "Verif.Enc.C43_never_read_partial",
    "Verif.Enc.C43_violated"
   ],
   "note": "Does not hold of the code as stated; the negation is proved: is violated: the JSON text `{\"\":\"x\"}` sets a field tagged `json:\"-\"`. What is proved instead: unmarshalling never changes a field tagged `json:\"-\"`, as long as the object has no key `\"\"`."
  },
  {
   "property": "C44",
   "status": "proved",
   "theorems": [
    "Verif.Enc.C44_tags",
    "Verif.Enc.C44_written",
    "Verif.Enc.C44_all_present"
   ],
   "note": ""
  },
  {
   "property": "C45",
   "status": "partial",
   "theorems": [
    "Verif.Enc.C45_key_violated",
    "Verif.Enc.C45_int",
    "Verif.Enc.C45_uint_partial",
    "Verif.Enc.C45_wrap",
    "Verif.Enc.C45_in_range_partial",
    "Verif.Enc.C45_truncation_violated",
    "Verif.Enc.C45_uint64_violated"
   ],
   "note": "Does not hold of the code as stated; the negation is proved: is violated for keys as well: the key 300 of an object becomes 44 in a `map[int8]…`, and so the keys 44 and 300 become one. is violated: the number 300 is stored in an `int8` as 44, without an error. is violated: every `uint64` from 2^63 on is written to JSON as a negative number, which can not be read back. What is proved instead: unsigned integers below 2^63 survive, with and without JSON. integers in the range of the target are stored unchanged."
  },
  {
   "property": "C46",
   "status": "partial",
   "theorems": [
    "Verif.Enc.C46_integer_part",
    "Verif.Enc.C46_unsigned",
    "Verif.Enc.C46_exponent_violated"
   ],
   "note": "Does not hold of the code as stated; the negation is proved: is violated for numbers with an exponent after a decimal point: `1.5e3` is read as 1."
  },
  {
   "property": "C47",
   "status": "proved",
   "theorems": [
    "Verif.Pipe.C47_fifo",
    "Verif.Pipe.C47_closed",
    "Verif.Pipe.C47_eof",
    "Verif.Pipe.C47_ready",
    "Verif.Pipe.C47_close_again"
   ],
   "note": ""
  },
  {
   "property": "C48",
   "status": "proved",
   "theorems": [
    "Verif.Enc.C48_distinct",
    "Verif.Enc.C48_first_last",
    "Verif.Enc.C48_json",
    "Verif.Enc.C48_unmarshal"
   ],
   "note": ""
  },
  {
   "property": "C49",
   "status": "proved",
   "theorems": [
    "Verif.Api.C49_inputs",
    "Verif.Api.C49_template"
   ],
   "note": ""
  },
  {
   "property": "C50",
   "status": "partial",
   "theorems": [
    "Verif.Api.C50_required",
    "Verif.Api.C50_auth_required",
    "Verif.Api.C50_identity_partial",
    "Verif.Api.C50_body_irrelevant_partial",
    "Verif.Api.C50_violated",
    "Verif.Api.C50_spoofed_violated"
   ],
   "note": "Does not hold of the code as stated; the negation is proved: is violated: if the field for the identity is an input too, of a struct type, then what the body says stays where the identity says nothing. And without an identity, if none is required, the identity is the one in the body. What is proved instead: The field for the identity holds what the identity is unmarshalled to, starting from the template's value (or zero). It is not affected by the body. Two requests with the same identity, and bodies as different as can be, give the same identity field."
  },
  {
   "property": "C51",
   "status": "proved",
   "theorems": [
    "Verif.Api.C51_sent",
    "Verif.Api.C51_no_leak",
    "Verif.Api.C51_client"
   ],
   "note": ""
  },
  {
   "property": "C52",
   "status": "partial",
   "theorems": [
    "Verif.Api.C52_request",
    "Verif.Api.C52_response",
    "Verif.Api.C52_call_partial",
    "Verif.Api.C52_violated"
   ],
   "note": "Does not hold of the code as stated; the negation is proved: is violated if the client's outputs are not zero before: using an object for a second call keeps parts of the first response. What is proved instead: A whole call: the server computes from the client's inputs, and the client ends up with the outputs the server computed."
  },
  {
   "property": "C53",
   "status": "proved",
   "theorems": [
    "Verif.Api.C53_split",
    "Verif.Api.C53_words",
    "Verif.Api.C53_name",
    "Verif.Api.C53_valid"
   ],
   "note": ""
  },
  {
   "property": "C54",
   "status": "partial",
   "theorems": [
    "Verif.Openapi.C54_resolves",
    "Verif.Openapi.C54_described",
    "Verif.Openapi.C54_named",
    "Verif.Openapi.C54_terminates_partial",
    "Verif.Openapi.C54_violated"
   ],
   "note": "Does not hold of the code as stated; the negation is proved: for `type T []T` the walk never ends. What is proved instead: the walk ends, in one way, if types contain themselves only through named structs; missing are the other recursive types, see `C54_violated`."
  },
  {
   "property": "C55",
   "status": "partial",
   "theorems": [
    "Verif.Openapi.C55_outcome_partial",
    "Verif.Openapi.C55_supported",
    "Verif.Openapi.C55_violated"
   ],
   "note": "Does not hold of the code as stated; the negation is proved: a struct with a channel: the call panics, and leaves a definition without the later fields, which the next call refers to as if nothing was wrong. What is proved instead: on a new service a call for a type that contains none without schema succeeds; for a type that is itself without schema it fails with an error; what is missing is an error for the others: the call panics."
  },
  {
   "property": "C56",
   "status": "partial",
   "theorems": [
    "Verif.Http.C56_answer_partial",
    "Verif.Http.C56_no_leak",
    "Verif.Http.C56_readable",
    "Verif.Http.C56_violated"
   ],
   "note": "Does not hold of the code as stated; the negation is proved: An error with an informational code is answered 200, with the text of the error; one with a code that is none has no answer at all. What is proved instead: An error is answered with its code, or 500; there are no headers; the body is as given, if the code allows for one."
  },
  {
   "property": "C57",
   "status": "proved",
   "theorems": [
    "Verif.Http.C57_answer"
   ],
   "note": ""
  },
  {
   "property": "C58",
   "status": "partial",
   "theorems": [
    "Verif.Http.C58_forwarded",
    "Verif.Http.C58_panics",
    "Verif.Http.C58_measured_partial",
    "Verif.Http.C58_switching",
    "Verif.Http.C58_violated",
    "Verif.Http.C58_codes",
    "Verif.Http.C58_nested"
   ],
   "note": "Does not hold of the code as stated; the negation is proved: After an informational code the client sees 200, whatever code comes next, and the informational one is measured; a handler that writes nothing is answered 200, and 0 is measured. What is proved instead: If the status is settled by a final code, the client sees this code, with all that is written if the code allows a body, and it is the one measured."
  },
  {
   "property": "C59",
   "status": "partial",
   "theorems": [
    "Verif.Http.C59_do",
    "Verif.Http.C59_unchanged",
    "Verif.Http.C59_code",
    "Verif.Http.C59_violated"
   ],
   "note": "Does not hold of the code as stated; the negation is proved: is violated: if a later output can not be read then the call fails, but the earlier ones are changed."
  },
  {
   "property": "C60",
   "status": "proved",
   "theorems": [
    "Verif.Ws.C60_sequential",
    "Verif.Ws.C60_disconnect",
    "Verif.Ws.C60_closed",
    "Verif.Ws.C60_ends"
   ],
   "note": ""
  },
  {
   "property": "C61",
   "status": "proved",
   "theorems": [
    "Verif.Ws.C61_refines",
    "Verif.Ws.C61_own_channel",
    "Verif.Ws.C61_isolated",
    "Verif.Ws.C61_open",
    "Verif.Ws.C61_call",
    "Verif.Ws.C61_unknown",
    "Verif.Ws.C61_loop",
    "Verif.Ws.C61_unreadable"
   ],
   "note": ""
  },
  {
   "property": "C62",
   "status": "partial",
   "theorems": [
    "Verif.Ws.C62_unusable_partial",
    "Verif.Ws.C62_violated"
   ],
   "note": "Does not hold of the code as stated; the negation is proved: but the client is not told. The open is handled as a success, nothing is sent but what `Init` itself sent, and the channel is registered; it is the first call on it that fails, and ends the whole connection. What is proved instead: after a failed `Init` no method of the object can be called on the channel: any data frame for it is an error."
  },
  {
   "property": "C63",
   "status": "partial",
   "theorems": [
    "Verif.Ws.C63_arrives_partial",
    "Verif.Ws.C63_round_trip_partial",
    "Verif.Ws.C63_violated"
   ],
   "note": "Does not hold of the code as stated; the negation is proved: a frame whose data is the empty string arrives without data. What is proved instead: (what happens to every frame): a frame whose data can be encoded arrives with its channel, path and type, and with its data in decoded form, unless that is null or the empty string. so a frame without data, or with data that is neither null nor the empty string, survives."
  },
  {
   "property": "C64",
   "status": "proved",
   "theorems": [
    "Verif.TestIO.C64_in_order",
    "Verif.TestIO.C64_eof",
    "Verif.TestIO.C64_progress",
    "Verif.TestIO.C64_written"
   ],
   "note": ""
  },
  {
   "property": "C65",
   "status": "partial",
   "theorems": [
    "Verif.Ctx.C65_repeat_violated",
    "Verif.Ctx.C65_repeat_message_partial",
    "Verif.Ctx.C65_repeat_tags_partial"
   ],
   "note": "Does not hold of the code as stated; the negation is proved: `FormatMsg` overwrites the caller's slice, so formatting the same slice again does not give the same tags: there is an argument whose tag rewrite is applied the first time only. What is proved instead: the message of the second formatting is the same, and its arguments are unchanged. so do the tags, unless a `Loggable` argument changes them: the second time they are the initial ones with the errors added. Missing: `LogAs` of the arguments is not called again, see `C65_repeat_violated`."
  },
  {
   "property": "C66",
   "status": "partial",
   "theorems": [
    "Verif.Prom.C66_exposition_violated",
    "Verif.Prom.C66_exposition_partial"
   ],
   "note": "Does not hold of the code as stated; the negation is proved: the rendering of a tab is not readable as a Prometheus label value, and a NUL is not either. What is proved instead: label values made of printable characters and newlines are read back exactly."
  },
  {
   "property": "C67",
   "status": "partial",
   "theorems": [
    "Verif.Shutdown.C67_hold_reuse_violated",
    "Verif.Shutdown.C67_no_reuse_partial"
   ],
   "note": "Does not hold of the code as stated; the negation is proved: a hold taken after the last release, while a goroutine of an earlier `Done` call has been woken but has not run yet, makes that goroutine panic. What is proved instead: in executions where no hold is taken while a woken `Done` goroutine is pending, nothing panics except an excess release."
  },
  {
   "property": "C68",
   "status": "partial",
   "theorems": [
    "Verif.Storage.C68_compound_self_violated",
    "Verif.Storage.C68_compound_other_violated",
    "Verif.Storage.C68_compound_self_partial"
   ],
   "note": "Does not hold of the code as stated; the negation is proved: a record holding a map does not reliably match a filter for that very map: when the two renderings iterate in different orders they differ. Here the map is `{\"a\":1,\"b\":2}`. lists that differ match each other: elements are compared by `String()`, which does not tell types apart. Here the list of the integer 1 and the list of the digits \"1\". What is proved instead: what holds: with the same iteration order on both sides (in particular for values without maps of several entries) a value matches itself."
  },
  {
   "property": "C69",
   "status": "partial",
   "theorems": [
    "Verif.Storage.C69_isolation_violated",
    "Verif.Storage.C69_isolation_partial",
    "Verif.Storage.C69_history_partial"
   ],
   "note": "Does not hold of the code as stated; the negation is proved: a record edited by its owner after `Upsert` changes in the store. What is proved instead: what holds: edits of records that are not stored do not show. what holds: whatever is done to other keys, and to records that are not the one of this key, the key keeps its record and the record its content."
  },
  {
   "property": "C70",
   "status": "partial",
   "theorems": [
    "Verif.Config.C70_named_violated",
    "Verif.Config.C70_no_panic_partial"
   ],
   "note": "Does not hold of the code as stated; the negation is proved: a field whose type is a named boolean or integer makes loading panic for every text that parses. What is proved instead: what holds: with such types, methods that do not panic and exported tagged fields, loading never panics."
  },
  {
   "property": "C71",
   "status": "partial",
   "theorems": [
    "Verif.Enc.C71_violated",
    "Verif.Enc.C71_objects_violated",
    "Verif.Enc.C71_partial"
   ],
   "note": "Does not hold of the code as stated; the negation is proved: fails: lists nested more than 10000 deep are encoded without complaint, to a text that can not be decoded. fails: with objects in place of lists the encoder panics instead. What is proved instead: partial: up to 10000 levels everything that encodes decodes."
  },
  {
   "property": "C72",
   "status": "partial",
   "theorems": [
    "Verif.Enc.C72_violated"
   ],
   "note": "Does not hold of the code as stated; the negation is proved: fails: what follows the first value is ignored, whatever it is."
  },
  {
   "property": "C73",
   "status": "proved",
   "theorems": [
    "Verif.Enc.C73_reencode",
    "Verif.Enc.C73_decoded"
   ],
   "note": ""
  },
  {
   "property": "C74",
   "status": "partial",
   "theorems": [
    "Verif.Enc.C74_partial",
    "Verif.Enc.C74_violated",
    "Verif.Enc.C74_pairs_violated"
   ],
   "note": "Does not hold of the code as stated; the negation is proved: is violated: a node that holds pairs with a value JSON does not have panics, also inside a map, although the same value in a map is an error. is violated: a nil pointer to a `time.Time`, `enc.Time` or `enc.Duration` panics, and so does a struct with such a field. What is proved instead: marshalling never panics, for all types without channels, nodes and pointers to times and durations, and with valid tags."
  },
  {
   "property": "C75",
   "status": "partial",
   "theorems": [
    "Verif.Enc.C75_partial",
    "Verif.Enc.C75_violated",
    "Verif.Enc.C75_duration_violated"
   ],
   "note": "Does not hold of the code as stated; the negation is proved: is violated: a `Duration` node panics in every variable for integers, floats and strings. is violated: the text `{\"E\":1}` into a struct with a field `E` of an interface type with methods (say `error`) panics. What is proved instead: unmarshalling any text into any variable does not panic, for all types without interfaces that have methods, and with valid tags."
  },
  {
   "property": "C76",
   "status": "partial",
   "theorems": [
    "Verif.Enc.C76_marshal",
    "Verif.Enc.C76_unmarshal_partial",
    "Verif.Enc.C76_violated"
   ],
   "note": "Does not hold of the code as stated; the negation is proved: is violated: `{\"1\":true,\"01\":false}` into a `map[int64]bool` gives 1 ↦ false or 1 ↦ true depending on the order. What is proved instead: unmarshalling into types whose maps have string keys: success, and the value, do not depend on the order."
  },
  {
   "property": "C77",
   "status": "partial",
   "theorems": [
    "Verif.Enc.C77_partial",
    "Verif.Enc.C77_violated"
   ],
   "note": "Does not hold of the code as stated; the negation is proved: is violated: an integer in an `any` comes back as a float. What is proved instead: nil, booleans, strings, floats that JSON can represent, and lists and maps of these survive in an `any`."
  },
  {
   "property": "C78",
   "status": "partial",
   "theorems": [
    "Verif.Api.C78_violated",
    "Verif.Api.C78_partial"
   ],
   "note": "Does not hold of the code as stated; the negation is proved: is violated: a template with an unexported field that is set (a handle on a database, say) is accepted, and then every request panics. What is proved instead: with all fields exported, of types that unmarshal safely, no request of decoded JSON panics."
  },
  {
   "property": "C79",
   "status": "partial",
   "theorems": [
    "Verif.Http.C79_error_partial",
    "Verif.Http.C79_violated"
   ],
   "note": "Does not hold of the code as stated; the negation is proved: is violated: an error with an informational code, or one of 200 or 204, is a success for the client. What is proved instead: An error of a handler reaches the client as an error of the same code."
  },
  {
   "property": "C80",
   "status": "proved",
   "theorems": [
    "Verif.Http.C80_call",
    "Verif.Http.C80_ready"
   ],
   "note": ""
  },
  {
   "property": "C81",
   "status": "partial",
   "theorems": [
    "Verif.Http.C81_violated",
    "Verif.Http.C81_partial"
   ],
   "note": "Does not hold of the code as stated; the negation is proved: is violated: a body that is not a JSON object is answered 500, as if the server had failed. What is proved instead: Whereas an object that does not fit, or lacks a required input, is answered 400 with the reason."
  },
  {
   "property": "C82",
   "status": "partial",
   "theorems": [
    "Verif.Http.C82_violated"
   ],
   "note": "Does not hold of the code as stated; the negation is proved: is violated: an API that requires an identity can not be called over http: every request that gets an answer is refused."
  },
  {
   "property": "C83",
   "status": "partial",
   "theorems": [
    "Verif.Http.C83_call_partial",
    "Verif.Http.C83_error_partial",
    "Verif.Http.C83_code_violated",
    "Verif.Http.C83_stale_violated"
   ],
   "note": "Does not hold of the code as stated; the negation is proved: is violated: if `exec` fails with code 204 then the call succeeds, and the outputs are those of before. is violated: an object used for a second call keeps what the first response had and the second has not. What is proved instead: A call over http is a call: if the inputs, then the outputs, survive JSON, `exec` sees the inputs of the client and the client gets the outputs. And if `exec` fails the client is told, with the code, and its object is as it was."
  },
  {
   "property": "C84",
   "status": "partial",
   "theorems": [
    "Verif.Http.C84_violated",
    "Verif.Http.C84_partial"
   ],
   "note": "Does not hold of the code as stated; the negation is proved: is violated: without a `url` tag the client panics, whatever the network does. What is proved instead: with a `url`, all fields exported and of types that are marshalled and unmarshalled safely, `Client.API` does not panic, whatever the network does."
  },
  {
   "property": "C85",
   "status": "partial",
   "theorems": [
    "Verif.Http.Listen.C85_terminates",
    "Verif.Http.Listen.C85_partial",
    "Verif.Http.Listen.C85_refused",
    "Verif.Http.Listen.C85_violated"
   ],
   "note": "Does not hold of the code as stated; the negation is proved: is violated: if the program is shutting down, `Shutdown` may be called before `Serve`; then the caller waits forever, whatever happens. What is proved instead: If nothing more can happen then `Listen` returned, or `Serve` refused."
  },
  {
   "property": "C86",
   "status": "partial",
   "theorems": [
    "Verif.Openapi.C86_keys_partial",
    "Verif.Openapi.C86_violated"
   ],
   "note": "Does not hold of the code as stated; the negation is proved: with an underscore two types share a definition: the second is described by the first. What is proved instead: types of different packages or names have different keys, as long as neither contains an underscore, and the name (as every Go name) no slash."
  },
  {
   "property": "C87",
   "status": "partial",
   "theorems": [
    "Verif.Openapi.C87_described_partial",
    "Verif.Openapi.C87_violated"
   ],
   "note": "Does not hold of the code as stated; the negation is proved: unexported fields and those with the tag `-` are properties in the definition, the latter under the name `-`, but are never written. What is proved instead: whatever `enc` writes for a value of a struct is among the properties of its definition. What is missing is the other direction."
  },
  {
   "property": "C88",
   "status": "proved",
   "theorems": [
    "Verif.Openapi.C88_documented",
    "Verif.Openapi.C88_resolves",
    "Verif.Openapi.C88_kept",
    "Verif.Openapi.C88_rest_ignored"
   ],
   "note": ""
  },
  {
   "property": "C89",
   "status": "partial",
   "theorems": [
    "Verif.TestIO.C89_wakes_partial",
    "Verif.TestIO.C89_close_violated",
    "Verif.TestIO.C89_readers_violated"
   ],
   "note": "Does not hold of the code as stated; the negation is proved: `Close` does not wake a reader that waits: the buffer is closed, and it keeps waiting, whatever happens, as long as nobody calls `SetReadClosed`. and with two readers one may be left waiting though there is something to read: the other took only a part of the chunk that was appended. What is proved instead: with one reader, and the buffer closed by `SetReadClosed`, a reader that is left waiting has nothing to read, and the buffer is open. Missing are more readers, and `Close`; see `C89_close_violated` and `C89_readers_violated`."
  },
  {
   "property": "C90",
   "status": "partial",
   "theorems": [
    "Verif.Ws.C90_ends_partial",
    "Verif.Ws.C90_violated"
   ],
   "note": "Does not hold of the code as stated; the negation is proved: in that state, which is reached whenever the peer has sent something after the frame that failed, the goroutine never ends unless the context is cancelled: the loop has returned and the connection is closed. What is proved instead: the reading goroutine can end in every state but one: it has read a node, the loop will not take it, and the context is not cancelled."
  },
  {
   "property": "C91",
   "status": "partial",
   "theorems": [
    "Verif.Ws.C91_violated",
    "Verif.Ws.C91_silent_partial"
   ],
   "note": "Does not hold of the code as stated; the negation is proved: a close frame is answered by closing the whole connection: the channel is still there, and nothing reaches the client anymore, on no channel. What is proved instead: what is right about it: the channel gets nothing sent anymore."
  },
  {
   "property": "C92",
   "status": "partial",
   "theorems": [
    "Verif.Ws.C92_panic_partial",
    "Verif.Ws.C92_violated"
   ],
   "note": "Does not hold of the code as stated; the negation is proved: an `Init` that panics ends the connection without a disconnect frame. What is proved instead: an error or a method's panic ends the connection with a disconnect frame (C60): the handler reports them as errors. The only panic that is not caught is one while a channel is opened."
  },
  {
   "property": "C93",
   "status": "partial",
   "theorems": [
    "Verif.Ws.Test.C93_own_result_partial",
    "Verif.Ws.Test.C93_violated"
   ],
   "note": "Does not hold of the code as stated; the negation is proved: if the first method fails, the second call may return the first one's error, though its own method succeeds. What is proved instead: as long as no method fails, every call returns its own result, and all calls have returned in order."
  },
  {
   "property": "C94",
   "status": "proved",
   "theorems": [
    "Verif.Ctx.C94_last_attached",
    "Verif.Ctx.C94_tag_shadows",
    "Verif.Ctx.C94_typed_keys_safe"
   ],
   "note": ""
  },
  {
   "property": "C95",
   "status": "proved",
   "theorems": [
    "Verif.Ctx.C95_earliest",
    "Verif.Ctx.C95_never_extended"
   ],
   "note": ""
  },
  {
   "property": "C96",
   "status": "proved",
   "theorems": [
    "Verif.Ast.C96_caller",
    "Verif.Ast.C96_unique"
   ],
   "note": ""
  },
  {
   "property": "C97",
   "status": "partial",
   "theorems": [
    "Verif.Ast.C97_closed_block_partial",
    "Verif.Ast.C97_last_partial",
    "Verif.Ast.C97_own_assignment_violated",
    "Verif.Ast.C97_leak_violated"
   ],
   "note": "Does not hold of the code as stated; the negation is proved: an argument that is reassigned from the call itself, as in `x = f(x)`, is reported as assigned by that very call, not by the assignment `before` that gave it the value passed. the variable of an `if x := …; … { }` is reported for a call after the `if`, where another `x` is meant. What is proved instead: what is assigned inside a block that ended before the call is never reported, whatever the block contains. the last plain assignment of the block before the call is the one reported."
  },
  {
   "property": "C98",
   "status": "partial",
   "theorems": [
    "Verif.Ast.C98_empty_literal_violated",
    "Verif.Ast.C98_no_source_violated",
    "Verif.Ast.C98_not_found_violated",
    "Verif.Ast.C98_partial"
   ],
   "note": "Does not hold of the code as stated; the negation is proved: an empty function literal among the arguments of the call makes the finder panic, so the assertion under test crashes instead of reporting. where the source file cannot be read, `Nil`, `NotNil`, `Empty` and `NotEmpty` crash with a nil dereference instead of reporting. so they do for any file in which no such call starts on the line, for instance a call of an instantiated generic function `f[int](…)`. What is proved instead: in a file whose assignments are inside blocks (every Go file) and where no matching call has an empty function literal as argument, the finder never panics."
  },
  {
   "property": "C99",
   "status": "proved",
   "theorems": [
    "Verif.Utils.Stack.C99_short",
    "Verif.Utils.Stack.C99_func_name",
    "Verif.Utils.Stack.C99_stack"
   ],
   "note": ""
  },
  {
   "property": "C100",
   "status": "partial",
   "theorems": [
    "Verif.Utils.Stack.C100_present",
    "Verif.Utils.Stack.C100_module",
    "Verif.Utils.Stack.C100_other",
    "Verif.Utils.Stack.C100_sibling_violated"
   ],
   "note": "Does not hold of the code as stated; the negation is proved: the prefix is not cut at a path separator, so a file of another module whose name merely begins with this module's name is mapped below a directory next to this module's."
  },
  {
   "property": "C101",
   "status": "partial",
   "theorems": [
    "Verif.Utils.Stack.C101_nearest",
    "Verif.Utils.Stack.C101_declared_partial",
    "Verif.Utils.Stack.C101_first_partial",
    "Verif.Utils.Stack.C101_comment_violated"
   ],
   "note": "Does not hold of the code as stated; the negation is proved: a comment before the module line that contains the word \"module\" is taken for it. What is proved instead: when the file begins with its module line, the name found is the declared one. when the text before the module line does not contain the word \"module\" with a space after it, the name found is the declared one, however many spaces are in between."
  },
  {
   "property": "C102",
   "status": "proved",
   "theorems": [
    "Verif.Test.C102_opposites",
    "Verif.Test.C102_equal",
    "Verif.Test.C102_contains"
   ],
   "note": ""
  },
  {
   "property": "C103",
   "status": "partial",
   "theorems": [
    "Verif.Test.C103_newline_violated",
    "Verif.Test.C103_injective_partial",
    "Verif.Test.C103_one_line_partial"
   ],
   "note": "Does not hold of the code as stated; the negation is proved: read with Go's escapes, the quoted text is the original with every newline turned into a vertical tab: the replacement for a newline is `\\v`. What is proved instead: quoting loses nothing: different texts are shown differently. the shown text is on one line and without tabs."
  },
  {
   "property": "C104",
   "status": "partial",
   "theorems": [
    "Verif.Test.C104_func_violated",
    "Verif.Test.C104_typed_nil_violated",
    "Verif.Test.C104_nil_partial",
    "Verif.Test.C104_nil_is_empty",
    "Verif.Test.C104_empty_partial",
    "Verif.Test.C104_empty_panics_violated"
   ],
   "note": "Does not hold of the code as stated; the negation is proved: `Nil` fails on a nil function, which is nil. `NoError` accepts an error interface that is not nil but holds a nil pointer, which every `err != nil` test treats as an error. `Empty` and `NotEmpty` panic on numbers, booleans, arrays and functions. What is proved instead: for the other kinds, `Nil` passes exactly for the nil interface and nil slices, maps, channels and pointers. where `Empty` gives an answer it is the right one."
  },
  {
   "property": "C105",
   "status": "proved",
   "theorems": [
    "Verif.Test.C105_deque"
   ],
   "note": ""
  },
  {
   "property": "C106",
   "status": "proved",
   "theorems": [
    "Verif.Prom.C106_series",
    "Verif.Prom.C106_histogram",
    "Verif.Prom.C106_custom_order",
    "Verif.Prom.C106_custom",
    "Verif.Prom.C106_prefix"
   ],
   "note": ""
  },
  {
   "property": "C107",
   "status": "partial",
   "theorems": [
    "Verif.Prom.C107_never_500_violated",
    "Verif.Prom.C107_truncated_200_violated",
    "Verif.Prom.C107_early_failure_partial",
    "Verif.Prom.C107_complete"
   ],
   "note": "Does not hold of the code as stated; the negation is proved: whatever fails and whatever metrics of this package are registered, a scrape answers 200: `WriteHeader(500)` comes after the first `Write`, when the status has gone out. two gauges, the fourth write fails: a truncated page answered 200. What is proved instead: the 500 does reach the client when a metric fails before anything was written, and the metrics after a failing one are not asked."
  },
  {
   "property": "C108",
   "status": "partial",
   "theorems": [
    "Verif.Prom.C108_desc_injects_violated",
    "Verif.Prom.C108_series_partial",
    "Verif.Prom.C108_labels_partial"
   ],
   "note": "Does not hold of the code as stated; the negation is proved: a newline in the description puts a sample of the author's choosing on the page. What is proved instead: a name, description, kind, label text or value without a newline keeps every line of counters and gauges a line of its own. label values never break a line, whatever they contain: the label text of a series has no newline as long as the label names have none."
  },
  {
   "property": "C109",
   "status": "partial",
   "theorems": [
    "Verif.Enc.C109_slice",
    "Verif.Enc.C109_array",
    "Verif.Enc.C109_map",
    "Verif.Enc.C109_pointer_violated",
    "Verif.Enc.C109_struct_violated"
   ],
   "note": "Does not hold of the code as stated; the negation is proved: a pointer is replaced although what it should point to is not read: the old value is lost, also when there was one. a struct keeps the fields that were set before the one that failed."
  },
  {
   "property": "C110",
   "status": "partial",
   "theorems": [
    "Verif.Enc.C110_partial",
    "Verif.Enc.C110_names_violated",
    "Verif.Enc.C110_go_names"
   ],
   "note": "Does not hold of the code as stated; the negation is proved: a struct put into an `any` has the Go names of its fields as keys, although its JSON text, its documentation and every other conversion use the JSON names: `{\"id\": …}` becomes `ID`. What is proved instead: as long as every field is called what it is called in JSON, what ends up in the `any` is the same with and without JSON in between."
  },
  {
   "property": "C111",
   "status": "partial",
   "theorems": [
    "Verif.Openapi.C111_tidy",
    "Verif.Openapi.C111_slice",
    "Verif.Openapi.C111_map",
    "Verif.Openapi.C111_reference",
    "Verif.Openapi.C111_order_violated"
   ],
   "note": "Does not hold of the code as stated; the negation is proved: the format of a definition is that of the type it was first reached from. If that was a pointer then every later slice of users is documented as one of pointers, and the other way round."
  },
  {
   "property": "C112",
   "status": "proved",
   "theorems": [
    "Verif.Prom.C112_sample",
    "Verif.Prom.C112_bucket",
    "Verif.Prom.C112_histogram",
    "Verif.Prom.C112_page"
   ],
   "note": ""
  },
  {
   "property": "C113",
   "status": "proved",
   "theorems": [
    "Verif.Enc.C113_white_space",
    "Verif.Enc.C113_indent",
    "Verif.Enc.C113_same_nodes",
    "Verif.Enc.C113_blank"
   ],
   "note": ""
  },
  {
   "property": "C114",
   "status": "proved",
   "theorems": [
    "Verif.Enc.C114_exact",
    "Verif.Enc.C114_refused",
    "Verif.Enc.C114_document"
   ],
   "note": ""
  },
  {
   "property": "C115",
   "status": "partial",
   "theorems": [
    "Verif.Test.C115_success_means_same",
    "Verif.Test.C115_partial",
    "Verif.Test.C115_texts_partial",
    "Verif.Test.C115_struct_violated",
    "Verif.Test.C115_failed_violated",
    "Verif.Test.C115_range_violated",
    "Verif.Test.C115_precision_violated"
   ],
   "note": "Does not hold of the code as stated; the negation is proved: Violated for structs: a struct is written in the order of its fields, a text in the order of its keys, so a struct `{B, A}` is not equal to the very text it marshals to. Violated for values that cannot be marshalled: two errors with the same text are equal, whatever the values were. Violated for numbers that are not a `float64`: a text whose number is out of range equals the text `null`. Numbers are compared as `float64`: two texts with the same float are equal, even when the digits are not the same number. What is proved instead: The same documents are always found equal when no struct was marshalled. Two texts holding JSON: equal exactly when they mean the same, whatever the white space, the order of the members, the escapes and the spelling of the numbers."
  },
  {
   "property": "C116",
   "status": "partial",
   "theorems": [
    "Verif.Http.C116_count",
    "Verif.Http.C116_partial",
    "Verif.Http.C116_twice_violated",
    "Verif.Http.C116_panic_violated"
   ],
   "note": "Does not hold of the code as stated; the negation is proved: requests for a path that a handler was registered for by `Handle` are counted twice: after `n` of them the series says `2 * n`. a request whose handler panics is not measured at all, wherever it comes in the sequence. What is proved instead: if no handler was registered by `Handle` (they were registered by `HandleRequest`, `RegisterAPI`, `CallHandler`, …), each series counts exactly the requests with its labels that were answered. Missing: handlers registered by `Handle`, and handlers that panic, or send no final status code (C58)."
  },
  {
   "property": "C117",
   "status": "partial",
   "theorems": [
    "Verif.Http.Methods.C117_methods_violated",
    "Verif.Http.C117_violated",
    "Verif.Http.C117_partial"
   ],
   "note": "Does not hold of the code as stated; the negation is proved: clients choose how many series there are: as long as requests are answered, whatever the server, for every `n` there are `n` requests (for paths nobody registered, if they like) that make `n` different series. is violated even if clients ask for one path only, be it registered or not: `n` requests with different methods make `n` series, which are kept for ever. What is proved instead: there is a series for nothing but what was asked for and answered: each is that of a method, code and path of an answered request, or of the pattern that served it."
  },
  {
   "property": "C118",
   "status": "partial",
   "theorems": [
    "Verif.Http.C118_registers",
    "Verif.Http.C118_kept",
    "Verif.Http.C118_documented",
    "Verif.Http.C118_reserved",
    "Verif.Http.C118_routing",
    "Verif.Http.C118_api_violated",
    "Verif.Http.C118_undocumented_violated"
   ],
   "note": "Does not hold of the code as stated; the negation is proved: `RegisterAPI`, which returns an error, panics when one of its urls is taken; those before it stay registered, and are not documented. an API that can not be described is refused with an error, and serves all the same, undocumented; handlers registered by `CallHandler` are never documented."
  },
  {
   "property": "C119",
   "status": "partial",
   "theorems": [
    "Verif.Api.C119_test",
    "Verif.Api.C119_agrees_partial",
    "Verif.Api.C119_auth_violated",
    "Verif.Api.C119_state_violated",
    "Verif.Api.C119_int_violated",
    "Verif.Api.C119_float_violated"
   ],
   "note": "Does not hold of the code as stated; the negation is proved: is violated: `TestAPI` succeeds for an API that requires an identity, and every call over the wire fails. is violated: a field that is neither input nor output is in the test what it is in the tested object, because that is the template of the server; over the wire it is what the server's template says. is violated: integers in an `any` are integers in the test, and floats over the wire. is violated: floats JSON can not write pass the test, and no call that sends one succeeds. What is proved instead: And then the test says what the call over JSON does, whatever the template of the server is: both leave the same object, or both fail, if the inputs and the outputs survive JSON, no identity is required, and `Do` is a function of the inputs."
  },
  {
   "property": "C120",
   "status": "partial",
   "theorems": [
    "Verif.Enc.Paths.C120_during_partial",
    "Verif.Enc.Paths.C120_kept_violated"
   ],
   "note": "Does not hold of the code as stated; the negation is proved: **C120, violated.** A path kept for later may have become that of another field. What is proved instead: **C120.** During the call, the path is the position of the field: the type, and the names, keys and indexes that lead to it, however arrays grow."
  },
  {
   "property": "C121",
   "status": "partial",
   "theorems": [
    "Verif.Enc.Paths.C121_place_partial",
    "Verif.Enc.Paths.C121_keys_partial",
    "Verif.Enc.Paths.C121_begin_partial",
    "Verif.Enc.Paths.C121_map_violated",
    "Verif.Enc.Paths.C121_parent_violated"
   ],
   "note": "Does not hold of the code as stated; the negation is proved: **C121, violated.** The path does not tell under which key of a map it went wrong. **C121, violated.** The parent of a path is never the path without its last element, if it has one: the root's panics, others lose two. What is proved instead: **C121.** The path in an error tells the place: structs, lists and arrays. Two places have the same text only if they are the same but for the keys of maps. **C121.** The empty path has a name; one that begins with a key begins with its text, without a dot."
  },
  {
   "property": "C122",
   "status": "partial",
   "theorems": [
    "Verif.Enc.Factory.C122_made_violated",
    "Verif.Enc.Factory.C122_error_partial",
    "Verif.Enc.Factory.C122_other_partial",
    "Verif.Enc.Factory.C122_pointers_partial"
   ],
   "note": "Does not hold of the code as stated; the negation is proved: **C122, violated.** A factory that makes an object never gets it into the variable: whatever the type it is registered for, however many pointers lead to it, whatever the object, `Unmarshal` panics. What is proved instead: **C122.** A factory's error is returned, and the variable is as it was, but for pointers to new zero values. **C122.** Types without a factory are handled as if there were no factories; a factory for a pointer type is never asked. **C122.** Without a factory, what is read ends up behind new pointers."
  },
  {
   "property": "C123",
   "status": "partial",
   "theorems": [
    "Verif.Enc.Durations.C123_exact_partial",
    "Verif.Enc.Durations.C123_wrap_violated",
    "Verif.Enc.Durations.C123_panic_violated",
    "Verif.Enc.Durations.C123_text_partial",
    "Verif.Enc.Durations.C123_none",
    "Verif.Enc.Durations.C123_order_violated"
   ],
   "note": "Does not hold of the code as stated; the negation is proved: **C123, violated.** If it can not, the result is some other duration, without an error. **C123, violated.** Asking a number that was decoded for its duration panics exactly if it does not fit. **C123, violated.** Go also allows reading it before the call: then every text that is one gives zero and no error. What is proved instead: **C123.** So many units are that long, if an `int64` can hold it, also after the number crossed the wire. **C123.** Texts read as times and durations are what `Must…` makes of them, if the result is read after the call."
  },
  {
   "property": "C124",
   "status": "partial",
   "theorems": [
    "Verif.Ctx.Slog.C124_line_partial",
    "Verif.Ctx.Slog.C124_dropped_partial",
    "Verif.Ctx.Slog.C124_level_violated",
    "Verif.Ctx.Slog.C124_tag_violated",
    "Verif.Ctx.Slog.C124_set_partial",
    "Verif.Ctx.Slog.C124_reset_violated"
   ],
   "note": "Does not hold of the code as stated; the negation is proved: **C124, violated.** With a tag called \"level\", logging panics. Tagging a context is enough: no argument removes the tag. **C124, violated.** Making another default logger sets the level of all of them back to `debug`. What is proved instead: **C124.** A record at or above the minimum level is one line with its level, message and source, and the tags the context and the arguments give, each once and with its value; unless one of them is called \"level\" or \"msg\". **C124.** A record below the minimum level is not written, and harmless whatever its tags. **C124.** A record is written exactly if its level is at least the one set last (`debug`, -4, at first), as long as no other default logger is made."
  },
  {
   "property": "C125",
   "status": "partial",
   "theorems": [
    "Verif.Sync.C125_round_partial",
    "Verif.Sync.C125_error_partial",
    "Verif.Sync.C125_status_partial",
    "Verif.Sync.C125_interfaces",
    "Verif.Sync.C125_nil_violated",
    "Verif.Sync.C125_value_violated",
    "Verif.Sync.C125_unhandled_violated"
   ],
   "note": "Does not hold of the code as stated; the negation is proved: **C125, violated.** A map that holds a nil interface can not be marshalled: it panics. **C125, violated.** A map held by value is marshalled as an empty object, whatever it holds. **C125, violated.** Fields that nothing takes are not reported to `UnhandledFields` inside a `sync.Map`, while they are inside a plain map. What is proved instead: **C125.** What one map marshals to, another takes: from then on it acts like a plain map with the entries of the first, and its own under other keys; if the keys and values survive a round trip and no value is a nil interface. Whatever the histories of the two, and the order in which maps are visited. **C125.** If it can not be read, the map is as it was. **C125.** It can be read if a plain map could; null is nothing to store."
  },
  {
   "property": "C126",
   "status": "partial",
   "theorems": [
    "Verif.Ws.Transport.C126_fragment_refused",
    "Verif.Ws.Transport.C126_whole_partial",
    "Verif.Ws.Transport.C126_write_partial",
    "Verif.Ws.Transport.C126_fragment_violated",
    "Verif.Ws.Transport.C126_wrong_violated",
    "Verif.Ws.Transport.C126_ping_violated"
   ],
   "note": "Does not hold of the code as stated; the negation is proved: **C126, violated.** Of a message in fragments, the first one is taken for the message; whatever follows on the connection is lost. So the number 12 may arrive as 1. **C126, violated.** A ping or pong, which every peer may send at any time, ends the program. What is proved instead: **C126.** Messages in one frame arrive, each once, in order, up to the first that is no JSON or the end; the program goes on. **C126.** What one side writes, the other reads: the nodes as JSON makes them."
  },
  {
   "property": "C127",
   "status": "partial",
   "theorems": [
    "Verif.Http.Graceful.C127_sockets_partial",
    "Verif.Http.Graceful.C127_requests_violated",
    "Verif.Http.Graceful.C127_idle_violated",
    "Verif.Http.Graceful.C127_cancel_partial"
   ],
   "note": "Does not hold of the code as stated; the negation is proved: **C127, violated.** The shutdown completes, and the program ends, while any number of requests are being answered; one of them may even become a websocket afterwards. **C127, violated.** As long as a client keeps a websocket open and there is no second signal, the shutdown does not complete, whatever else happens. What is proved instead: **C127.** The shutdown is not complete before it began and the server stopped taking requests; at that moment no websocket is open. **C127.** After the second signal, the connections end by themselves and the shutdown completes."
  },
  {
   "property": "C128",
   "status": "partial",
   "theorems": [
    "Verif.Openapi.Wire.C128_written_partial",
    "Verif.Openapi.Wire.C128_bytes_violated",
    "Verif.Openapi.Wire.C128_null_violated"
   ],
   "note": "Does not hold of the code as stated; the negation is proved: **C128, violated.** A `[]byte` is documented as a string, but is written as an array of numbers; and a string is not accepted for it. **C128, violated.** Nil slices, maps and pointers are written as null, and what an interface holds may be anything. What is proved instead: **C128.** What is written for a value fits the schema of its type, if it holds no `[]byte`, no interface, and nothing nil that is not omitted, and the properties are told apart by their names."
  },
  {
   "property": "C129",
   "status": "partial",
   "theorems": [
    "Verif.Openapi.Wire.C129_shown_partial",
    "Verif.Openapi.Wire.C129_zero_violated",
    "Verif.Openapi.Wire.C129_unsigned_violated",
    "Verif.Openapi.Wire.C129_range_violated",
    "Verif.Openapi.Wire.C129_trailing_violated",
    "Verif.Openapi.Wire.C129_nan_violated",
    "Verif.Openapi.Wire.C129_null_violated",
    "Verif.Openapi.Wire.C129_trim"
   ],
   "note": "Does not hold of the code as stated; the negation is proved: **C129, violated.** Zeros are not shown. **C129, violated.** The largest unsigned number is shown as a string, and is refused when it is sent as one. **C129, violated.** An example that is no value of the type is shown as if it was one. **C129, violated.** What follows the first value is ignored. **C129, violated.** An example that is not a number, or not finite, is shown by a document that can not be encoded: `Encode` panics, for the whole document. **C129, violated.** The example `null` of a pointer to a struct is shown as a string. What is proved instead: **C129.** If the tag stands for a value, then the document has an example, it can be encoded, and it reads back as the value; unless the value is written as null, zero or the empty string."
  },
  {
   "property": "C130",
   "status": "partial",
   "theorems": [
    "Verif.Example.C130_set_partial",
    "Verif.Example.C130_refused",
    "Verif.Example.C130_get_violated",
    "Verif.Example.C130_auth_violated",
    "Verif.Example.Race.C130_serial_partial",
    "Verif.Example.Race.C130_race_violated",
    "Verif.Example.Race.C130_reader_violated",
    "Verif.Example.Race.C130_lost_violated"
   ],
   "note": "Does not hold of the code as stated; the negation is proved: is violated: `Get` can not be registered, its `api` tag has words that are not known. The application ignores the error, so what was set can not be read. is violated even without that field: `Get` requires an identity, which requests over http never have. is violated: any two requests at the same time can end the program. is violated: reading while another request writes ends the program too, once something is stored. is violated: of two requests that set the same key at the same time, even if the program survives, one value can be lost without anybody being told of it: both are told the value before, and only the second is in the store. What is proved instead: The store gives back what it was given: whatever was requested before, a request to set `k` is answered with `k` and the value of the last request that set it, or the one it had at the start. Requests that do not overlap are safe: the program is not ended, each is told what the ones before it left, and all are in the store."
  },
  {
   "property": "C131",
   "status": "partial",
   "theorems": [
    "Verif.Sync.Metrics.C131_exclusion",
    "Verif.Sync.Metrics.C131_reports",
    "Verif.Sync.Metrics.C131_progress",
    "Verif.Sync.Metrics.C131_order_violated"
   ],
   "note": "Does not hold of the code as stated; the negation is proved: is violated: the lines are not in the order of what they report. `Unlock` writes its line after giving the lock back, so the next holder can be reported before: the log shows the lock taken twice before it is given back."
  },
  {
   "property": "C132",
   "status": "partial",
   "theorems": [
    "Verif.Ctx.TagJson.C132_tag_json_partial",
    "Verif.Ctx.TagJson.C132_reported_partial",
    "Verif.Ctx.TagJson.C132_no_errors",
    "Verif.Ctx.TagJson.C132_tags_told",
    "Verif.Ctx.TagJson.C132_lost_violated",
    "Verif.Ctx.TagJson.C132_deep_violated",
    "Verif.Ctx.TagJson.C132_replaced_violated"
   ],
   "note": "Does not hold of the code as stated; the negation is proved: fails: `WithTag` keeps what it is given as JSON without looking at it. A tag that is no JSON in the context of one error makes the log say nothing about any of the errors: no message, no stack, no tags, and no word about it. fails: so does a value that `json.Marshal` writes without complaint but that is nested more than 10000 deep. fails: a tag called `error` that the context already has is replaced in the line. What is proved instead: for everything but JSON that is handed over as such: what `WithTag` keeps is a JSON document, whatever the value. `json.Marshal` is assumed to write JSON. if all tags are JSON with at most 9997 levels: when errors are among the arguments, the tag `error` of the line is a JSON list with the description of each, in order; the other tags are as the `Loggable` arguments leave them."
  },
  {
   "property": "C133",
   "status": "partial",
   "theorems": [
    "Verif.Ws.Writers.C133_prefix_partial",
    "Verif.Ws.Writers.C133_frames_partial",
    "Verif.Ws.Writers.C133_writes_partial",
    "Verif.Ws.Writers.C133_overlap_violated"
   ],
   "note": "Does not hold of the code as stated; the negation is proved: fails: `Close` does not wait for a `Write` under way. All calls return, and the peer reads a message nobody sent: the header of the message, and the bytes of the close frame as its payload; there is no close frame. What is proved instead: as long as no `Close` overlaps a `Write`: at any time the frames of all calls but the last have gone out whole, in the order in which they got the mutex, followed by the beginning of the last one; nothing of it is missing when all calls have returned. as long as no `Close` overlaps a `Write`: when all calls have returned, the peer reads exactly their frames, in the order in which they got the mutex. for calls of `Write` only: however many goroutines write, when all calls have returned the peer reads exactly their messages, in the order in which they got the mutex."
  },
  {
   "property": "C134",
   "status": "partial",
   "theorems": [
    "Verif.Ws.Serve.C134_hold",
    "Verif.Ws.Serve.C134_rpc",
    "Verif.Ws.Serve.C134_count",
    "Verif.Ws.Serve.C134_connect",
    "Verif.Ws.Serve.C134_panics",
    "Verif.Ws.Serve.C134_closed",
    "Verif.Ws.Serve.C134_told_partial",
    "Verif.Ws.Serve.C134_twice_violated",
    "Verif.Ws.Serve.C134_refused_violated",
    "Verif.Ws.Serve.C134_close_partial",
    "Verif.Ws.Serve.C134_close_violated",
    "Verif.Ws.Serve.C134_reader",
    "Verif.Ws.Serve.C134_handshake_violated",
    "Verif.Ws.Serve.C134_handshake_partial"
   ],
   "note": "Does not hold of the code as stated; the negation is proved: fails: of an accepted connection the peer gets two close frames, whatever the application does. fails: a peer refused by `OnConnect` (or by its panic) is not told: the transport ends without a close frame. fails: if it can not, the transport is left open (until the handler returns). fails: the comment says that the handshake accepts any request; one without an `Origin` header, as sent by programs other than browsers, is refused. What is proved instead: if the connection was accepted and writing does not fail, the peer gets every message sent before the first `Close`, by `OnConnect`, by the handler of messages, or the disconnect frame; then it is told, with the status of that `Close`, or 1000 if the application did not close, and nothing else follows than a second close frame. `Close` closes the transport, if the close frame can be written; with an `Origin` header it accepts what can be parsed, from wherever it is."
  },
  {
   "property": "C135",
   "status": "partial",
   "theorems": [
    "Verif.Lists.Heap.C135_copy",
    "Verif.Lists.Heap.C135_flatten",
    "Verif.Lists.Heap.C135_addUnique_partial",
    "Verif.Lists.Heap.C135_addUnique_violated",
    "Verif.Lists.Heap.C135_split_partial",
    "Verif.Lists.Heap.C135_split_violated"
   ],
   "note": "Does not hold of the code as stated; the negation is proved: fails: two results of `AddUnique` on one slice with room left are one: the first becomes the second. fails: a chunk has the rest of the input as its capacity, so appending to it overwrites the next chunk. What is proved instead: `AddUnique` gives what it should (C12); the slice it was given, and slices that have no array in common with it, are as before. the chunks of `Split` hold what C09 says, and are windows on the input: assigning to one of them is assigning to the input."
  },
  {
   "property": "C136",
   "status": "partial",
   "theorems": [
    "Verif.Lists.Sort.C136_perm",
    "Verif.Lists.Sort.C136_sort",
    "Verif.Lists.Sort.C136_stable_partial",
    "Verif.Lists.Sort.C136_sortFunc_partial",
    "Verif.Lists.Sort.C136_ints",
    "Verif.Lists.Sort.C136_nan_violated",
    "Verif.Lists.Sort.C136_pairs"
   ],
   "note": "Does not hold of the code as stated; the negation is proved: fails: one NaN among the scores leaves the others out of order. What is proved instead: up to twelve elements, those that are alike keep their order. `SortFunc` gives the same elements in the order of their scores, if the scores in use are ordered (whole numbers, texts, floats other than NaN)."
  },
  {
   "property": "C137",
   "status": "partial",
   "theorems": [
    "Verif.Enc.Ineff.C137_serial_partial",
    "Verif.Enc.Ineff.C137_race_violated",
    "Verif.Enc.Ineff.C137_reader_violated",
    "Verif.Enc.Ineff.C137_twice_violated",
    "Verif.Enc.Ineff.C137_told",
    "Verif.Enc.Ineff.C137_known_partial"
   ],
   "note": "Does not hold of the code as stated; the negation is proved: is violated: two calls about messages not logged yet can end the program, whatever the messages. And a call about a message that was logged long ago ends the program if it begins while another one is being added. is violated: two calls about the same message may both log it. What is proved instead: Calls that do not overlap: the program goes on, and a call warns if and only if its message was in no call before it. Once a message was logged, calls about it are safe together: in every order of their steps the program goes on and nothing is logged."
  },
  {
   "property": "C138",
   "status": "partial",
   "theorems": [
    "Verif.Enc.Hooks.C138_raw",
    "Verif.Enc.Hooks.C138_raw_marshal_partial",
    "Verif.Enc.Hooks.C138_trailing_violated",
    "Verif.Enc.Hooks.C138_empty_violated",
    "Verif.Enc.Hooks.C138_raw_violated",
    "Verif.Enc.Hooks.C138_given",
    "Verif.Enc.Hooks.C138_round_partial",
    "Verif.Enc.Hooks.C138_null",
    "Verif.Enc.Hooks.C138_nil_violated",
    "Verif.Enc.Hooks.C138_pointer_violated",
    "Verif.Enc.Hooks.C138_meaning",
    "Verif.Enc.Hooks.C138_order_violated",
    "Verif.Enc.Hooks.C138_dropped_violated"
   ],
   "note": "Does not hold of the code as stated; the negation is proved: is violated: of a `json.RawMessage` that holds more than one value only the first is written, without an error; `encoding/json` refuses it. is violated: an empty `json.RawMessage` (and any `MarshalJSON` that returns nothing) marshals without an error as no node at all, which `Encode` writes as null. is violated: a node that can not be encoded panics when it is put into a `json.RawMessage`, instead of returning an error. is violated: a nil pointer to any type with `MarshalJSON` on the value panics; `encoding/json` writes null. is violated: a value whose methods are both declared on the pointer is written by its kind and read by its method: what is written differs from what is written for a pointer to it, and comes back only if its own `UnmarshalJSON` happens to understand it. is violated: the members of an object arrive in the order of their names, and a repeated name arrives once, so of a type that keeps what it reads as it is, which gets the text itself from `encoding/json`, two values that differ can not both come back. is violated: of a node that can not be encoded, say a `Float` that is not a number or `Digits` that are none, `UnmarshalJSON` is given no bytes instead of an error. What is proved instead: A `json.RawMessage` that holds one document marshals as that document's node; nil marshals as null; what does not begin with a value is an error. a type whose `MarshalJSON` writes a document, and whose `UnmarshalJSON` understands every text with the same meaning, comes back from `Marshal`, `Encode`, `Decode` and `Unmarshal`, by value if `MarshalJSON` is declared on the value, and behind a pointer unless it writes null."
  },
  {
   "property": "C139",
   "status": "partial",
   "theorems": [
    "Verif.Enc.Rfc3339.C139_round_trip",
    "Verif.Enc.Rfc3339.C139_read",
    "Verif.Enc.Rfc3339.C139_distinct",
    "Verif.Enc.Rfc3339.C139_seconds_violated",
    "Verif.Enc.Rfc3339.C139_years_violated",
    "Verif.Enc.TimeRead.C139_valid",
    "Verif.Enc.TimeRead.C139_stable",
    "Verif.Enc.TimeRead.C139_calendar",
    "Verif.Enc.TimeRead.C139_days",
    "Verif.Enc.TimeRead.C139_instant"
   ],
   "note": "Does not hold of the code as stated; the negation is proved: violated: a time in a zone with seconds (before standard time nearly every zone is one: Amsterdam until 1937, +00:19:32) comes back as another instant, whatever the calendar, for every such time of the years 0 to 9999. violated: a time before the year 0 or after 9999 is written (`Format` has no error to return), but neither reader takes the text."
  },
  {
   "property": "C140",
   "status": "proved",
   "theorems": [
    "Verif.Enc.DurRead.C140_units",
    "Verif.Enc.DurRead.C140_sum",
    "Verif.Enc.DurText.C140_text",
    "Verif.Enc.DurText.C140_round_trip",
    "Verif.Enc.DurText.C140_node",
    "Verif.Enc.DurText.C140_distinct",
    "Verif.Enc.DurText.C140_range"
   ],
   "note": ""
  },
  {
   "property": "C141",
   "status": "partial",
   "theorems": [
    "Verif.Enc.C141_zero_partial",
    "Verif.Enc.C141_node",
    "Verif.Enc.C141_time_violated",
    "Verif.Enc.C141_secret_violated",
    "Verif.Enc.C141_field_partial"
   ],
   "note": "Does not hold of the code as stated; the negation is proved: violated: an `enc.Time` refuses `null`, which a `time.Time`, an `enc.Duration` and a pointer to an `enc.Time` take; and keeps what it was. violated: for a whole struct `null` also clears the fields tagged `json:\"-\"`, which no object can name. Any such field that is not zero is lost. What is proved instead: for every type but `enc.Time` and `enc.Node`: `null`, and no node at all, leave the zero value in the variable, whatever was there, without an error and without asking the callback. in an object: a field whose value is `null` is cleared, the fields that follow are set as if it had not been there."
  },
  {
   "property": "C142",
   "status": "partial",
   "theorems": [
    "Verif.Http.CallBody.C142_body_partial",
    "Verif.Http.CallBody.C142_write",
    "Verif.Http.CallBody.C142_overwrite_violated",
    "Verif.Http.CallBody.C142_alias_violated",
    "Verif.Http.CallBody.C142_timeout",
    "Verif.Http.CallBody.C142_serve",
    "Verif.Http.CallBody.C142_length_violated"
   ],
   "note": "Does not hold of the code as stated; the negation is proved: violated: a `Write` after `SetBody` writes into the array of the handler, behind the slice that was given away: a slice of the handler that begins there is overwritten. For every slice with room. violated: what the handler does to a slice after `SetBody` changes the response. For every cell of the slice. violated: `MaxLength`, whose comment promises a default of a megabyte, is not looked at: no body is too long. What is proved instead: for handlers that give slices away without room behind them and do not touch them afterwards: the response is what was written since the last `SetBody`, and the arrays of the handler are changed by nobody else."
  },
  {
   "property": "C143",
   "status": "partial",
   "theorems": [
    "Verif.Ws.Transport.C143_prefix",
    "Verif.Ws.Transport.C143_cut_partial",
    "Verif.Ws.Transport.C143_empty_violated",
    "Verif.Ws.Transport.C143_number_violated"
   ],
   "note": "Does not hold of the code as stated; the negation is proved: violated: if the connection ends right after the header of a frame, a message nobody sent, no node at all, is delivered, whatever was sent. violated: a number that is cut is delivered as another number: for every number of more than one digit. What is proved instead: a message that is cut, and is not a number, is not delivered, if anything of it has come; those before it are."
  },
  {
   "property": "C144",
   "status": "partial",
   "theorems": [
    "Verif.Ws.EndLog.C144_always_violated",
    "Verif.Ws.EndLog.C144_quiet",
    "Verif.Ws.EndLog.C144_reader_partial",
    "Verif.Ws.EndLog.C144_polite_violated",
    "Verif.Ws.EndLog.C144_nil_violated"
   ],
   "note": "Does not hold of the code as stated; the negation is proved: violated: whenever a connection has ended, however it ended, exactly one warning says so: `Loop` has no way to return without an error. violated: a peer that closes the connection as it should causes a warning of the reader, one that just drops it does not. In every execution without cancellation. violated: a reader that has a node nobody takes when the context is cancelled warns of an error that is nil. What is proved instead: the reading goroutine logs once, when it ends: nothing if the context had been cancelled and a read failed; otherwise the error of the read."
  },
  {
   "property": "C145",
   "status": "partial",
   "theorems": [
    "Verif.Enc.C145_refused_partial",
    "Verif.Enc.C145_kind",
    "Verif.Enc.C145_malformed",
    "Verif.Enc.C145_keys",
    "Verif.Enc.C145_pointer_violated",
    "Verif.Enc.C145_interface_partial",
    "Verif.Enc.C145_interface_violated",
    "Verif.Enc.C145_null",
    "Verif.Enc.C145_taken"
   ],
   "note": "Does not hold of the code as stated; the negation is proved: violated: a pointer is set to a new zero value before its target is refused: what it pointed to is lost. violated: an interface with methods is no error but a panic. What is proved instead: a JSON value of a kind the variable can not be set from gives an error, the callback is not asked, and the variable keeps what it held, unless it is a pointer. of what a program makes itself an interface with methods refuses times and durations properly."
  },
  {
   "property": "C146",
   "status": "partial",
   "theorems": [
    "Verif.Ws.Session.C146_session_partial",
    "Verif.Ws.Session.C146_all",
    "Verif.Ws.Session.C146_isolated",
    "Verif.Ws.Session.C146_replies_partial",
    "Verif.Ws.Session.C146_ping_violated"
   ],
   "note": "Does not hold of the code as stated; the negation is proved: **C146, violated.** A peer that sends a ping between its frames, as every peer may at any time, ends the program and with it every session (C126). What is proved instead: **C146.** Whatever the schedule, and wherever the connection breaks: what a websocket session has done to the objects, and what it has sent, is what its first frames do one after the other; a disconnect frame was sent if and only if the last of them failed, and the loop has then ended or is about to. **C146.** What is sent back is one text frame per frame, from which the peer reads the frame, but for data that is null or an empty text (C63)."
  },
  {
   "property": "C147",
   "status": "partial",
   "theorems": [
    "Verif.Openapi.Served.C147_served",
    "Verif.Openapi.Served.C147_last",
    "Verif.Openapi.Served.C147_api_partial",
    "Verif.Openapi.Served.C147_resolves",
    "Verif.Openapi.Served.C147_body_violated"
   ],
   "note": "Does not hold of the code as stated; the negation is proved: is violated by the body: the document says of every API that the body may be left out, also of one with a required input, which then refuses the request. What is proved instead: after an API is registered, a reader of the document finds under its urls: as properties of the request those of its inputs, as required ones those that are, as properties of the response its outputs; and a token is asked for if and only if it has a field for one. What is missing is whether there has to be a body."
  },
  {
   "property": "C148",
   "status": "partial",
   "theorems": [
    "Verif.Ws.Inspect.C148_name",
    "Verif.Ws.Inspect.C148_accepted_partial",
    "Verif.Ws.Inspect.C148_accepted_violated",
    "Verif.Ws.Inspect.C148_methods_partial",
    "Verif.Ws.Inspect.C148_map",
    "Verif.Ws.Inspect.C148_call_partial",
    "Verif.Ws.Inspect.C148_init_partial",
    "Verif.Ws.Inspect.C148_fields_partial",
    "Verif.Ws.Inspect.C148_copy_partial",
    "Verif.Ws.Inspect.C148_unexported_violated",
    "Verif.Ws.Inspect.C148_changed_violated",
    "Verif.Ws.Inspect.C148_name_violated",
    "Verif.Ws.Inspect.C148_result_violated",
    "Verif.Ws.Inspect.C148_variadic_violated",
    "Verif.Ws.Inspect.C148_registered_partial",
    "Verif.Ws.Inspect.C148_session_partial",
    "Verif.Ws.Inspect.C148_same_violated"
   ],
   "note": "Does not hold of the code as stated; the negation is proved: violated: a struct is no error, and does not work either, though the message of the error says it would: it panics. So do pointers that are nil or point to something else. violated: if a field that is not exported is set, every open of a channel panics. violated: of an object that is changed later, some fields are taken as they are now, others are zero: those that were zero when it was registered. violated: a method whose name starts with a letter that is not ASCII can not be called. violated: a method that returns something that is neither nil nor an error is run, but the call ends the connection, without an answer. violated: a variadic method can not be called, unless it takes values of type `any`; then it gets one, the whole list, whatever the client sent. violated: two types whose names differ in the case of the first letter are one: the one registered last replaces the other, without an error. What is proved instead: what can be registered are pointers to structs, with whatever methods and fields; what is neither a struct nor a pointer is an error. the methods a client can call are those of the right shape, by their names. a call runs the method on the object of the channel. the constructor is the method `Init`, if it has the right shape, and otherwise there is none. if no field that is not exported is set, a new channel has an object with the fields of the registered one, those that were zero then being zero, the others as they are now. as long as the registered object is left alone, a new object is its copy. an object is found by the name of its type, and registering it leaves the others. from the registration of an object without constructor to the answer to a call of one of its methods, in a session of a client."
  },
  {
   "property": "C149",
   "status": "partial",
   "theorems": [
    "Verif.Prom.Conc.C149_scrape_partial",
    "Verif.Prom.Conc.C149_once",
    "Verif.Prom.Conc.C149_grows_partial",
    "Verif.Prom.Conc.C149_total",
    "Verif.Prom.Conc.C149_deterministic",
    "Verif.Prom.Conc.C149_progress",
    "Verif.Prom.Conc.C149_counter_partial",
    "Verif.Prom.Conc.C149_histogram_partial",
    "Verif.Prom.Conc.C149_moment_violated",
    "Verif.Prom.Conc.C149_race_violated"
   ],
   "note": "Does not hold of the code as stated; the negation is proved: a scrape of several series is no picture of a moment: here it shows 1 for the first and 2 for the second, which are never so at the same time in any interleaving. a scrape of a counter reads the sum while somebody else, who has the lock, may be about to write it: a data race. What is proved instead: in every interleaving, what a scrape shows of a series is the outcome of exactly the observations that took effect before it, one after the other: none is lost, none is seen in the middle. For scrapes with the lock (histograms), and for those without if observing is one write (counters). Missing: a scrape shows several series of one moment, see `C149_moment_violated`. a later scrape shows at least what an earlier one showed. the value a scrape shows of a counter is the sum, from zero in some order, of the observations that took effect before: though it is read without the lock. Missing: the read is a data race (`C149_race_violated`), so this depends on a word being read whole. the buckets, the sum and the count a scrape shows of a series of a histogram are all of the same observations. Missing: before the first observation there are no buckets, and the scrape panics (C28)."
  },
  {
   "property": "C150",
   "status": "partial",
   "theorems": [
    "Verif.Ws.TestLife.C150_ends_partial",
    "Verif.Ws.TestLife.C150_results",
    "Verif.Ws.TestLife.C150_unknown_violated",
    "Verif.Ws.TestLife.C150_closed_violated",
    "Verif.Ws.TestLife.C150_leak_violated",
    "Verif.Ws.TestLife.C150_nested_violated"
   ],
   "note": "Does not hold of the code as stated; the negation is proved: calling a method that does not exist, or that panics, never returns, whatever happens: the server ends its loop, and tells it to a channel the client does not know. (The first call; the callback takes its replies.) after `Close` no call ever returns, whatever the methods do and whatever happens. and `Close` does not end the server: after a call and `Close` the loop waits, and nothing can happen but further calls and `Close`. a callback that calls a method when it gets a reply blocks itself, the server and the call for ever. What is proved instead: as long as every method that is called is there and does not panic, the callback does not call and nobody closes: a call that was sent can always go on, and gets a result before the server has done all it can. Missing: the result may be another call's (C93); and see the violations."
  },
  {
   "property": "C151",
   "status": "partial",
   "theorems": [
    "Verif.Caches.Wait.C151_ends_partial",
    "Verif.Caches.Wait.C151_plain_partial",
    "Verif.Caches.Wait.C151_waits_partial",
    "Verif.Caches.Wait.C151_whole_violated",
    "Verif.Caches.Wait.C151_hit_violated",
    "Verif.Caches.Wait.C151_cross_violated"
   ],
   "note": "Does not hold of the code as stated; the negation is proved: is violated by `LRU` and `Mem`: if a miss function asks the cache for any key, even one that is stored, then it waits for its own caller, and from then on no call of any goroutine ever gets anything: all they can do is to begin and to wait. is violated: while an `LRU` or a `Mem` is told about one key, nobody gets another one that is stored; in the same situation `RequestCache` answers. is violated: two requests whose fetches ask for each other's key wait for ever. What is proved instead: If misses ask only for keys of a lower rank then all calls return: from every reachable state only so many steps can follow, unless there are new calls, and when nothing can go on there is no call left. So no goroutine waits for ever, whatever the schedule. A miss function that leaves the cache alone is fine for all of them. A `Request` waits only for a goroutine which fetches the same key."
  },
  {
   "property": "C152",
   "status": "partial",
   "theorems": [
    "Verif.Enc.Keys.C152_key",
    "Verif.Enc.Keys.C152_written",
    "Verif.Enc.Keys.C152_defined",
    "Verif.Enc.Keys.C152_map_partial",
    "Verif.Enc.Keys.C152_float_violated",
    "Verif.Enc.Keys.C152_uint_violated",
    "Verif.Enc.Keys.C152_time_violated",
    "Verif.Enc.Keys.C152_any_violated",
    "Verif.Enc.Keys.C152_method_violated",
    "Verif.Enc.Keys.C152_method",
    "Verif.Enc.Keys.C152_agrees"
   ],
   "note": "Does not hold of the code as stated; the negation is proved: is violated: a map with floats as keys is written, but no object with a member is read into such a map. is violated: unsigned integers from 2^63 on are written as negative numbers, which are refused. is violated: a time as a key is read but not written; behind a pointer it is both; a nil pointer panics. is violated: two keys of a `map[any]any`, a number and its text, are written as one member, whose value depends on the order of visits; and a number comes back as a text. is violated: a string or integer type with a method that writes it is written by this method, but what is read is the text itself or the number in it: its own method is not called. What is proved instead: a map with such keys is written, in whatever order its entries are visited, as an object with as many members; read in any order, it is the same map. What is missing: all other keys."
  },
  {
   "property": "C153",
   "status": "partial",
   "theorems": [
    "Verif.Api.Isolate.C153_alone_partial",
    "Verif.Api.Isolate.C153_flat_partial",
    "Verif.Api.Isolate.C153_lost_violated",
    "Verif.Api.Isolate.C153_seen_violated"
   ],
   "note": "Does not hold of the code as stated; the negation is proved: is violated: a map, slice or pointer of the template is the same in all requests, so two requests that each add one may add one together. is violated: what one client sends can be seen by the handler of another's request. What is proved instead: if no handler writes to what the template leads to, then every request goes on as if it were alone, whatever other requests there are and in whatever order they go on. and if no kept field of the template is a reference, then this is so whatever the handlers do."
  },
  {
   "property": "C154",
   "status": "partial",
   "theorems": [
    "Verif.OMap.Reenter.C154_walk_partial",
    "Verif.OMap.Reenter.C154_order",
    "Verif.OMap.Reenter.C154_exact",
    "Verif.OMap.Reenter.C154_deleted_violated",
    "Verif.OMap.Reenter.C154_stale_violated",
    "Verif.OMap.Reenter.C154_slots_violated"
   ],
   "note": "Does not hold of the code as stated; the negation is proved: is violated: the callback deletes the second entry before its turn, but it is visited if the entry put before needed a larger array; if there was room it is not. is violated: an entry deleted and put again is visited with its old value, or not at all. is violated: slots of deleted entries are never used again: a map in which one key is put and deleted `n` times is empty and has `n` slots, all of which `Len` and `Range` pass. What is proved instead: whatever the callback does to the map, `Range` does not panic, visits entries there at the beginning only, in their order and each at most once, visits each one that has not been deleted with the value it has at that time, and leaves the map that the changes make of it. What is missing: if the map was given a larger array, it may also visit deleted entries."
  },
  {
   "property": "C155",
   "status": "partial",
   "theorems": [
    "Verif.Test.Contexts.C155_cancelled",
    "Verif.Test.Contexts.C155_reports_partial",
    "Verif.Test.Contexts.C155_last",
    "Verif.Test.Contexts.C155_tester_violated",
    "Verif.Test.Contexts.C155_logs",
    "Verif.Test.Contexts.C155_redacted_violated",
    "Verif.Test.Contexts.C155_deadline"
   ],
   "note": "Does not hold of the code as stated; the negation is proved: is violated: `WithTester` takes every `testing.TB`, but with the tester of a benchmark or a fuzz test every JSON assertion panics, also one that holds, and also if a test is attached below; and so it does without a tester. is violated: the log function of a test formats its arguments as they are, so a redacted text is written on a terminal, but not otherwise. What is proved instead: an assertion on a context derived from that of a test, by any calls that attach no other tester, reports to this test, also when the context is cancelled or detached. What is missing: testers that are no `*testing.T`."
  },
  {
   "property": "C156",
   "status": "partial",
   "theorems": [
    "Verif.Caches.Odd.C156_lru_answers",
    "Verif.Caches.Odd.C156_lru_misses",
    "Verif.Caches.Odd.C156_lru_invalidate",
    "Verif.Caches.Odd.C156_lru_index_partial",
    "Verif.Caches.Odd.C156_lru_kept",
    "Verif.Caches.Odd.C156_lru_index_violated",
    "Verif.Caches.Odd.C156_mem_answers",
    "Verif.Caches.Odd.C156_mem_kept",
    "Verif.Caches.Odd.C156_mem_violated",
    "Verif.OMap.Odd.C156_omap_answers",
    "Verif.OMap.Odd.C156_omap_found_partial",
    "Verif.OMap.Odd.C156_omap_violated",
    "Verif.OMap.Odd.C156_omap_kept"
   ],
   "note": "Does not hold of the code as stated; the negation is proved: what is put under an odd key can be listed but not found, replaced or removed: `n` times putting, reading and deleting it answer \"not found\" each time and leave `n` entries. with an odd key, a cache with room for one entry grows without bound: after `n` lookups of the key, each followed by invalidating it, one entry at most is cached, and the index has at least `n`. `Mem` does not forget an odd key: after `n` lookups, each followed by invalidating the key, it has `n` entries for it. What is proved instead: what was put under a key equal to itself is found and removed by every key equal to it, whatever other keys are in the map: putting and deleting change what is found for the keys of this class, and nothing else. What is missing: for odd keys it is not, see `C156_omap_violated`. the index holds each class once, exactly those of the keys in the list; without odd keys it has an entry for each cached entry and no other. What is missing: with odd keys it has more, see `C156_lru_index_violated`."
  },
  {
   "property": "C157",
   "status": "partial",
   "theorems": [
    "Verif.Config.Shared.C157_alone",
    "Verif.Config.Shared.C157_keeps",
    "Verif.Config.Shared.C157_independent_partial",
    "Verif.Config.Shared.C157_shared_violated",
    "Verif.Config.Shared.C157_layered_violated"
   ],
   "note": "Does not hold of the code as stated; the negation is proved: two configurations loaded from values with a list of one text and room for another: the second load replaces the text the first had appended. such values come from `From` itself: of a configuration with three texts, loaded from nothing, two are made, one text more each; both end with the same fourth. What is proved instead: configurations loaded from the same values, whose slices have no spare capacity, are independent: at the end each has the fields, and each load had the outcome, as if it were the only one. What is missing: with spare capacity they are not, see `C157_shared_violated`."
  },
  {
   "property": "C158",
   "status": "partial",
   "theorems": [
    "Verif.Ws.TestCtx.C158_fifo",
    "Verif.Ws.TestCtx.C158_closed",
    "Verif.Ws.TestCtx.C158_ends_partial",
    "Verif.Ws.TestCtx.C158_close_violated",
    "Verif.Ws.TestCtx.C158_unopened_violated",
    "Verif.Ws.TestCtx.Race.C158_race_partial",
    "Verif.Ws.TestCtx.Race.C158_race_violated"
   ],
   "note": "Does not hold of the code as stated; the negation is proved: a reply that waits because its outbox is full goes on waiting, whatever else happens and although the connection is closed, until someone takes from the outbox or the context is cancelled. `NewContext` does not open its channel at the server, as its documentation says: whatever frames were handled before, none of which opens that channel, a frame sent to it is an error, which ends the connection with all its channels: nothing after it is handled. two channels opened one after the other, as `Open` does: if the server answers on the first while the second is registered, the program may end. What is proved instead: a reply that waits can return as soon as there is room in the outbox, or a receiver if its size is 0, or its context was cancelled. What is missing: closing the connection does not end it, see `C158_close_violated`. a test that registers all its channels before it sends the first frame is safe. What is missing: `Open` does both, so the second one is not, see `C158_race_violated`."
  },
  {
   "property": "C159",
   "status": "partial",
   "theorems": [
    "Verif.Storage.Conc.C159_linearizable_partial",
    "Verif.Storage.Conc.C159_keys",
    "Verif.Storage.Conc.C159_order",
    "Verif.Storage.Conc.C159_realtime",
    "Verif.Storage.Conc.C159_served",
    "Verif.Storage.Conc.C159_excludes",
    "Verif.Storage.Conc.C159_moment_violated"
   ],
   "note": "Does not hold of the code as stated; the negation is proved: violated: a `Range` during which another goroutine moves the field from one record to the other sees both, although at no moment of the execution both matched. What is proved instead: what holds: if no record is edited while the mutex is held, all that happens in any interleaving is what the calls do one after the other, each in one moment: the list of a `Range` is exactly the entries of the store that match at that moment. What is missing: nothing keeps callers from editing records at other times (`C159_moment_violated`)."
  },
  {
   "property": "C160",
   "status": "partial",
   "theorems": [
    "Verif.Errors.Compare.C160_found_partial",
    "Verif.Errors.Compare.C160_passed_partial",
    "Verif.Errors.Compare.C160_http_violated",
    "Verif.Errors.Compare.C160_ctx_violated",
    "Verif.Errors.Compare.C160_targets"
   ],
   "note": "Does not hold of the code as stated; the negation is proved: violated: asking whether an error made by `http.NewErrorf` is itself panics, whatever it is made of, if no cause has a stack of its own; so does asking an error that wraps it with `fmt.Errorf` any number of times. violated: every `ctx.Error` is every other: errors with different texts and causes can not be told apart. What is proved instead: what holds: asking for an error that is no `http.Error` with a `ctx.Error` in it does not panic, and finds it exactly if the error asked has it among its causes. What is missing: the errors `http.NewErrorf` makes (`C160_http_violated`), and that a `ctx.Error` is told from another one (`C160_ctx_violated`). what holds: such an error is itself, and stays recognisable however it is passed on (`ctx.WrapError`, `ctx.NewErrorf`, `fmt.Errorf`, `http.NewErrorf`). What is missing: as above."
  },
  {
   "property": "C161",
   "status": "partial",
   "theorems": [
    "Verif.Ws.TestWire.C161_session_partial",
    "Verif.Ws.TestWire.C161_replies_partial",
    "Verif.Ws.TestWire.C161_disconnect_violated",
    "Verif.Ws.TestWire.C161_float_violated",
    "Verif.Ws.TestWire.C161_lost_violated",
    "Verif.Ws.TestWire.C161_crash_violated",
    "Verif.Ws.TestWire.C161_typed_partial",
    "Verif.Ws.TestWire.C161_int_violated"
   ],
   "note": "Does not hold of the code as stated; the negation is proved: **C161, violated.** The client of a test never learns that the connection gave up: the disconnect frame has no channel, and is refused. A peer reads it. **C161, violated.** Floats that are no numbers reach the methods in a list, though no client could send them over a websocket. **C161, violated.** By themselves they end the connection of the test, and what was sent after is not read, nor is anyone told; a client of a websocket gets an error for this frame, sends nothing, and goes on. **C161, violated.** In a struct they end the program: the goroutine that reads for the test panics. **C161, violated.** An integer in a list is one in the test, and a float over a websocket. What is proved instead: **C161.** If the methods do not hear the form of the data, a test goes as a session of the same frames over a websocket: whatever happens in one, in any schedule, can happen in the other, with the same objects, the same frames sent, the same errors, and the same end. **C161.** What the connection sends reaches the client of the test with the channel, path, type and data, up to its form, that a peer reads from the websocket. **C161.** Methods of registered objects do not hear the form of the data of clients that send values of the types of their arguments, if these survive JSON."
  },
  {
   "property": "C162",
   "status": "partial",
   "theorems": [
    "Verif.Enc.Heap.C162_refines",
    "Verif.Enc.Heap.C162_frame",
    "Verif.Enc.Heap.C162_own_partial",
    "Verif.Enc.Heap.C162_twice_partial",
    "Verif.Enc.Heap.C162_variable",
    "Verif.Enc.Heap.C162_list_violated",
    "Verif.Enc.Heap.C162_map_violated"
   ],
   "note": "Does not hold of the code as stated; the negation is proved: **C162, violated.** A node variable shares the node: emptying the list that was read empties what was made of it, in a struct as well. **C162, violated.** And taking a key out of the map that was read takes it out of what was made of it. What is proved instead: **C162, without nodes.** The value of a new variable of a type without nodes is its own: whatever is done later to the node, or to anything else that was there before, does not change it. Missing: types with nodes, for which it is not so. **C162, without nodes.** What is made of the same node twice has nothing in common: doing anything to all that one of the values leads to does not change the other. Missing: types with nodes, for which it is not so."
  },
  {
   "property": "C163",
   "status": "partial",
   "theorems": [
    "Verif.Enc.Heap.C163_refines",
    "Verif.Enc.Heap.C163_own_partial",
    "Verif.Enc.Heap.C163_copy_partial",
    "Verif.Enc.Heap.C163_map_copied",
    "Verif.Enc.Heap.C163_list_violated",
    "Verif.Enc.Heap.C163_test_violated"
   ],
   "note": "Does not hold of the code as stated; the negation is proved: **C163, violated.** A list is not copied: emptying the list in the value empties the node made of it before, and the other way round. **C163, violated.** So a value made of it, as in a test, shares the list with the one it was made of: emptying it in one empties it in both. What is proved instead: **C163, without nodes.** The node made of a value of a type without nodes is its own: whatever is done later to the value, or to anything else that was there before, does not change it. Missing: types with nodes, for which it is not so. **C163, without nodes.** Marshalling a value and unmarshalling the node makes a copy: it shares nothing with the value, the node, or anything else. Missing: types with nodes, for which it is not so."
  },
  {
   "property": "C164",
   "status": "partial",
   "theorems": [
    "Verif.Caches.Conc.C164_answers",
    "Verif.Caches.Conc.C164_state",
    "Verif.Caches.Conc.C164_goes_on",
    "Verif.Caches.Conc.C164_once",
    "Verif.Caches.Conc.C164_fifo",
    "Verif.Caches.Conc.C164_string_partial",
    "Verif.Caches.Conc.C164_string_violated",
    "Verif.Caches.Conc.C164_torn_violated",
    "Verif.Caches.Conc.C164_mem"
   ],
   "note": "Does not hold of the code as stated; the negation is proved: `String` takes no lock. Called while another goroutine invalidates the only entry it panics, though no call that takes the lock ever does. and it may show more cached than the budget allows. What is proved instead: while no other call is running, `String` does not panic, and shows the sizes, the number of entries and a key that is there."
  },
  {
   "property": "C165",
   "status": "partial",
   "theorems": [
    "Verif.Http.Bodies.C165_fetch",
    "Verif.Http.Bodies.C165_left_iff",
    "Verif.Http.Bodies.C165_order_partial",
    "Verif.Http.Bodies.C165_no_content",
    "Verif.Http.Bodies.C165_held",
    "Verif.Http.Bodies.C165_one_partial",
    "Verif.Http.Bodies.C165_violated",
    "Verif.Http.Bodies.C165_server_violated"
   ],
   "note": "Does not hold of the code as stated; the negation is proved: every call that is answered by an error with a body keeps a connection; a client that keeps asking uses up any number of them. every error that a server of this package answers with a body is such an answer: an API that fails costs its client a connection. What is proved instead: what holds: a body that is read is the one that came, it is closed at most once, and not read after that. what holds: if every answer is 200 or 204, or has no body, then nothing is held; and if no connection breaks then one is enough."
  },
  {
   "property": "C166",
   "status": "partial",
   "theorems": [
    "Verif.Config.Defaults.C166_default_partial",
    "Verif.Config.Defaults.C166_comma_violated",
    "Verif.Config.Defaults.C166_list_violated",
    "Verif.Config.Defaults.C166_empty_violated"
   ],
   "note": "Does not hold of the code as stated; the negation is proved: a default with a comma, followed by anything but another default, makes loading fail, also if a value is given. whatever the tag, a list that is not configured has at most one element more than it was given, and a map at most one entry: there is no way to write another default. with a default that is not empty, a string can not be configured to be empty. What is proved instead: what holds: if the default has no comma then a missing value is loaded as if the default had been given; a value that is given is loaded as if there were no default."
  },
  {
   "property": "C167",
   "status": "partial",
   "theorems": [
    "Verif.Openapi.Marshallers.C167_seen_partial",
    "Verif.Openapi.Marshallers.C167_panics",
    "Verif.Openapi.Marshallers.C167_zero_partial",
    "Verif.Openapi.Marshallers.C167_all",
    "Verif.Openapi.Marshallers.C167_negative_violated",
    "Verif.Openapi.Marshallers.C167_shape_violated",
    "Verif.Openapi.Marshallers.C167_null_violated",
    "Verif.Openapi.Marshallers.C167_pointer_violated"
   ],
   "note": "Does not hold of the code as stated; the negation is proved: whatever else it writes, a type whose zero value is written as a negative number can not be documented. a struct that is written as a list is documented as an object, and a string that is written as an object as a string. a type whose zero value is written as null, or is refused, is documented by its kind whatever the others are written as: a `sql.NullString` with the methods that everybody gives it is documented as an object, and written as a string. if the method is declared on the pointer then a pointer to the type is documented by the kind of the type, although it is written by the method. What is proved instead: what holds of the switch: a type whose zero value is written as a boolean, a string or a number that is not negative is documented as that; one whose zero value is written as a list, an object or null, or not at all, as if it had no marshaller. Missing are negative numbers, see `C167_negative_violated`, and the cases where the type without marshaller has another shape. what holds of the documentation: if it is made then it shows the JSON type of what the zero value is written as, in exactly the cases where that is a boolean, a number, a string, or of the type's own shape. Missing are the others, see `C167_shape_violated`."
  },
  {
   "property": "C168",
   "status": "partial",
   "theorems": [
    "Verif.Prom.Reg.C168_answers",
    "Verif.Prom.Reg.C168_once_partial",
    "Verif.Prom.Reg.C168_range_partial",
    "Verif.Prom.Reg.C168_later_partial",
    "Verif.Prom.Reg.C168_goes_on",
    "Verif.Prom.Reg.C168_nil_violated"
   ],
   "note": "Does not hold of the code as stated; the negation is proved: a nil metric does not take its name: the next registration of the name returns too, and replaces it; and it is handed to callbacks, whose call of `Print` panics. What is proved instead: what holds: if no metric is nil then of the registrations of a name the first returns, and all others panic. Missing are nil metrics, see `C168_nil_violated`. what holds if no metric is nil: `Range` sees each name once: exactly the metrics whose registration returned before. Missing are nil metrics, see `C168_nil_violated`. what holds if no metric is nil: a metric whose registration returned is seen by every `Range` that returns later, in whichever goroutine."
  },
  {
   "property": "C169",
   "status": "partial",
   "theorems": [
    "Verif.TestIO.Shared.C169_bytes_partial",
    "Verif.TestIO.Shared.C169_reuse_violated",
    "Verif.TestIO.Shared.C169_late_violated",
    "Verif.TestIO.Shared.C169_empty_violated"
   ],
   "note": "Does not hold of the code as stated; the negation is proved: a writer that uses its buffer again, as `io.Writer` allows, overwrites what it wrote: afterwards everything written is the last. what is appended can be changed until it is read. a `Read` with an empty buffer that has capacity waits for bytes it can not take, where one without capacity returns at once. What is proved instead: what holds: if nobody writes to a slice while the pipe has it then the pipe is one of bytes: the reads give the bytes that were appended, and `Written` has what was written. Missing are callers that go on using their slices, see `C169_reuse_violated` and `C169_late_violated`, and buffers of length zero, see `C169_empty_violated`."
  },
  {
   "property": "C170",
   "status": "partial",
   "theorems": [
    "Verif.Sync.Race.C170_free_partial",
    "Verif.Sync.Race.C170_rest_partial",
    "Verif.Sync.Race.C170_string_violated",
    "Verif.Sync.Race.C170_conflicts",
    "Verif.Sync.Race.C170_counter_violated",
    "Verif.Sync.Race.C170_record_violated",
    "Verif.Sync.Race.C170_slice_violated",
    "Verif.Sync.Race.C170_document_violated",
    "Verif.Sync.Race.C170_close_violated",
    "Verif.Sync.Race.C170_maps_violated",
    "Verif.Sync.Race.C170_readall_partial",
    "Verif.Sync.Race.C170_cancel_violated"
   ],
   "note": "Does not hold of the code as stated; the negation is proved: violated: logging a cache while another goroutine uses it: `String` takes no mutex. violated: `Print` of a counter reads its sum without the mutex, while it is counted up. violated: a record may be edited, by whoever stored it or got it, while a filter looks at it, or while another edits it. violated: a slice handed to the pipe may be used again while it is read from. violated: registering something while the document is asked for: both use the maps of the document. violated: `Close` of a websocket writes while others do: it takes another mutex. violated: two goroutines that unmarshal something with `UnmarshalJSON`, or into a `json.RawMessage`; and two requests to the store of the example. violated: when the context is cancelled, `ReadAll` returns the buffer while it is still written to. What is proved instead: the caches (also the one for requests), the store, the registry, histograms and gauges, the buffered pipe and the mutex that measures can be used by any number of goroutines, calling any methods in any interleaving: no execution has a data race. For the cache this is without `String`, for the store as long as nobody edits a record, for the pipe as long as nobody uses a slice again; for the rest, all methods. a server that serves and registers nothing, senders on a websocket that nobody closes, and a counter nobody prints have no race either. `ReadAll` has no race as long as the caller waits for the reading goroutine, whatever is read."
  },
  {
   "property": "C171",
   "status": "partial",
   "theorems": [
    "Verif.Sync.Race.C171_caches_partial",
    "Verif.Sync.Race.C171_store_metrics",
    "Verif.Sync.Race.C171_self_violated",
    "Verif.Sync.Race.C171_cross_violated"
   ],
   "note": "Does not hold of the code as stated; the negation is proved: violated: a cache whose `miss` asks the cache itself, say for another key, waits for ever at the first miss; nothing else is needed. violated: two caches whose `miss` ask each other may wait for each other for ever, though each call alone would end. What is proved instead: goroutines that use a cache, a request cache, a store, or metrics, never wait for each other for ever: whatever they are to do, and however far they are, someone can go on as long as there is something to do; and all can finish, with every mutex free."
  },
  {
   "property": "C172",
   "status": "partial",
   "theorems": [
    "Verif.Http.Wrapped.C172_transparent_partial",
    "Verif.Http.Wrapped.C172_hijack",
    "Verif.Http.Wrapped.C172_code_violated",
    "Verif.Http.Wrapped.C172_direct",
    "Verif.Http.Wrapped.C172_flush_violated"
   ],
   "note": "Does not hold of the code as stated; the negation is proved: violated: a connection that is taken over, as every websocket, is measured with the code 0 by all layers, whatever status line the handler wrote to it, if it does not touch the writer any more; if it does, with a code no client was sent. violated: through a layer, nothing is sent before the handler ends unless it writes more than the buffer holds or takes the connection over; flushing is not possible. What is proved instead: as long as a handler does not flush, it does not notice the layers: it is told the same, and the client sees the same, at every moment and at the end."
  },
  {
   "property": "C173",
   "status": "partial",
   "theorems": [
    "Verif.Enc.Native.C173_builtin_partial",
    "Verif.Enc.Native.C173_range_violated",
    "Verif.Enc.Native.C173_place_partial",
    "Verif.Enc.Native.C173_place_violated",
    "Verif.Enc.Native.C173_digits",
    "Verif.Enc.Native.C173_digits_violated",
    "Verif.Enc.Native.C173_numbers"
   ],
   "note": "Does not hold of the code as stated; the negation is proved: violated: a document with a number out of range is accepted, and the number is a string; `encoding/json` refuses it. violated: a time node in an `any` is an `enc.Time` by itself and in an `[]any`, and a `time.Time` within a list in an `any`; durations too. violated: `Digits` are not always a number: with any document in it, it is written without complaint and read back as that document; a text that is none panics. What is proved instead: what `encoding/json` stores in an `any`, this does; whatever the text, as long as its numbers are in the range of float64. the value of a part of a list or an object is what the part alone would give, unless it is a time or a duration."
  },
  {
   "property": "C174",
   "status": "partial",
   "theorems": [
    "Verif.Http.Methods.C174_refused",
    "Verif.Http.Methods.C174_only",
    "Verif.Http.Methods.C174_ignored_violated",
    "Verif.Http.Methods.C174_method_violated",
    "Verif.Http.Methods.C174_type_violated",
    "Verif.Http.Methods.C174_head_violated",
    "Verif.Http.Methods.C174_bare_violated"
   ],
   "note": "Does not hold of the code as stated; the negation is proved: is violated: the method and the headers other than `Accept` make no difference to what is done, nor to the status, the headers and the code that is measured; nor to the body of the answer, except that HEAD is not sent it. is violated: whatever a request makes an API do, a GET with the same body, of any content type or none, makes it do as well, with the same answer. is violated: so does a POST of a form, which a browser sends for any page without asking. is violated: HEAD, which is meant to do nothing, does all that POST does; only the answer is not sent. is violated: if nothing is required, a request without a body, such as that for a link, runs `Do`, whatever its method."
  },
  {
   "property": "C175",
   "status": "partial",
   "theorems": [
    "Verif.Ws.Told.C175_text_partial",
    "Verif.Ws.Told.C175_new_partial",
    "Verif.Ws.Told.C175_argument_violated",
    "Verif.Ws.Told.C175_plain_violated",
    "Verif.Ws.Told.C175_internal_violated",
    "Verif.Ws.Told.C175_own_violated",
    "Verif.Ws.Told.C175_unsent_violated",
    "Verif.Ws.Told.C175_disconnect_partial",
    "Verif.Ws.Told.C175_http_violated",
    "Verif.Ws.Told.C175_silent_violated"
   ],
   "note": "Does not hold of the code as stated; the negation is proved: An error that wraps an error of `ctx`, whatever its message, is sent as an empty object: so is every argument that can not be read (reflect.go L76-78). With an error of the standard library the caller gets an empty object, whatever the error was: the text is only in the `error` frame, which does not say which call it is about except in its text. What the client is told of an internal error is its text: two that http answers alike (C56_no_leak) are told apart by their frames. Of an error of a type of its own the client gets the value, if it can be sent: all its exported fields (enc/handler.go L277-316), and not its text. If the value can not be marshalled, the method's error ends the whole connection, with all its channels: nothing is sent about the call, and the last frame has an empty object. With `http.NewErrorf` the caller gets an object with the code and the text. An error that a handler of its own returns to the loop and that can not be marshalled: the peer is not told that the connection ends (conn.go L60-67). What is proved instead: A method that fails with an error of `ctx`: the client is sent its text twice, with the `return` and with the `error`, after the replies; the connection goes on; and both frames can be read. Missing: all the other errors, see below; and a text that is empty does not arrive (C63). `ctx.NewErrorf` makes such errors, unless one of the errors it wraps is (or wraps) one already; and so does `ctx.WrapError`. The frames that end a connection: those for a path, a channel or a method that does not exist, and the client is told so; and those whose method panics, and it is told nothing."
  },
  {
   "property": "C176",
   "status": "partial",
   "theorems": [
    "Verif.Enc.Wire8.C176_order",
    "Verif.Enc.Wire8.C176_wire",
    "Verif.Enc.Wire8.C176_bytes_partial",
    "Verif.Enc.Wire8.C176_string_violated",
    "Verif.Enc.Wire8.C176_keys_violated",
    "Verif.Enc.Wire8.C176_text_law",
    "Verif.Utf8.C176_bytes",
    "Verif.Utf8.C176_utf8",
    "Verif.Utf8.C176_valid",
    "Verif.Utf8.C176_text_violated"
   ],
   "note": "Does not hold of the code as stated; the negation is proved: is violated: a string that is not valid is read as another one, which is valid; and different ones as the same. is violated: a string that is not UTF-8 comes back as another one. is violated: members are lost without an error, if their keys differ in invalid bytes only: the one with the greatest key stays. What is proved instead: if all strings are UTF-8, the node that is read has the same bytes everywhere. Missing: all other strings, see below."
  },
  {
   "property": "C177",
   "status": "partial",
   "theorems": [
    "Verif.Http.Short.C177_bytes",
    "Verif.Http.Short.C177_whole",
    "Verif.Http.Short.C177_cut_partial",
    "Verif.Http.Short.C177_empty_violated",
    "Verif.Http.Short.C177_call_violated"
   ],
   "note": "Does not hold of the code as stated; the negation is proved: is violated: if the connection ends right after the headers, and `net/http` does not notice, the call succeeds, and the outputs are what they were, whatever the server sent. The same of the whole call: whatever the API is and whatever it was asked, an empty response with code 200 is a success. What is proved instead: if not all of the object that the server sends arrives, and something does, then the call fails and the object of the client is as it was, whether `net/http` notices or not."
  },
  {
   "property": "C178",
   "status": "partial",
   "theorems": [
    "Verif.Enc.Nils.C178_text",
    "Verif.Enc.Nils.C178_native_partial",
    "Verif.Enc.Nils.C178_native_violated",
    "Verif.Enc.Nils.C178_list_violated",
    "Verif.Enc.Nils.C178_marshal",
    "Verif.Enc.Nils.C178_marshal_violated",
    "Verif.Enc.Nils.C178_into_partial",
    "Verif.Enc.Nils.C178_pointer_violated",
    "Verif.Enc.Nils.C178_node_violated",
    "Verif.Enc.Nils.C178_into_violated",
    "Verif.Enc.Nils.C178_elems",
    "Verif.Enc.Nils.C178_slice_violated",
    "Verif.Enc.Nils.C178_fields",
    "Verif.Enc.Nils.C178_field_violated"
   ],
   "note": "Does not hold of the code as stated; the negation is proved: is violated: with a nil interface anywhere inside, however deep, unmarshalling into an `any` panics, although the text is that of `Nil`. is violated: a nil list is an empty list in memory, and no list at all for whoever reads the text. is violated: but not out of lists, so that what `Marshal` returns can not be unmarshalled into an `any`. is violated: but behind a pointer a nil interface gives a new variable, where `Nil` gives nil. is violated: an `enc.Node` can tell them apart. is violated: into any other type but `enc.Node` it panics. is violated: a list with a nil element, all of whose elements before can be unmarshalled, panics for slices of nearly all types. is violated: a map with a nil member panics for a struct whose first field is that member. What is proved instead: in memory, a node without nil interfaces is the node with empty lists for nil ones. times and durations take a nil interface for `Nil`."
  },
  {
   "property": "C179",
   "status": "partial",
   "theorems": [
    "Verif.Http.Redirect.C179_chain",
    "Verif.Http.Redirect.C179_keeps_partial",
    "Verif.Http.Redirect.C179_limit",
    "Verif.Http.Redirect.C179_requests",
    "Verif.Http.Redirect.C179_nowhere",
    "Verif.Http.Redirect.C179_inputs_violated",
    "Verif.Http.Redirect.C179_answer_violated"
   ],
   "note": "Does not hold of the code as stated; the negation is proved: is violated: after a redirect with the code 301, 302 or 303, which is how proxies lead from http to https, the API runs on no inputs, whatever the client has sent. And the client takes the answer to that as the answer to its call: what it says is the same whatever its inputs are. What is proved instead: redirects with the codes 307 and 308 change nothing: the call is the call at the last address."
  },
  {
   "property": "C180",
   "status": "partial",
   "theorems": [
    "Verif.Http.Address.C180_arrives_partial",
    "Verif.Http.Address.C180_routed_partial",
    "Verif.Http.Address.C180_nobase",
    "Verif.Http.Address.C180_base_violated",
    "Verif.Http.Address.C180_unclean_violated",
    "Verif.Http.Address.C180_dots_violated",
    "Verif.Http.Address.Dots.C180_iff_partial",
    "Verif.Http.Address.Dots.C180_dead_violated"
   ],
   "note": "Does not hold of the code as stated; the negation is proved: is violated: the path of `BaseUrl` is ignored, so that servers below a path can not be called. is violated: an API whose path is not clean (`/a//b`) is registered and called, but no request is ever handled there: the multiplexer answers 301 to another path, which is followed with GET and without the inputs (`C179_inputs_violated`). is violated: a path with dots is registered as it is, and called without them. is violated: every API whose path has dots or an empty element is registered, and no request whatever is handled there. What is proved instead: an API whose url is a path without dots is called where the server registers it, at the host of `BaseUrl`. and if it is clean, the handler registered there is the one that is looked for. exactly the APIs with a clean path can be called: for those the client's request arrives where the server registers them, and the multiplexer looks for the handler there."
  },
  {
   "property": "C181",
   "status": "partial",
   "theorems": [
    "Verif.Enc.Again.C181_status",
    "Verif.Enc.Again.C181_again",
    "Verif.Enc.Again.C181_fresh",
    "Verif.Enc.Again.C181_joined",
    "Verif.Enc.Again.C181_order",
    "Verif.Enc.Again.C181_pointer_violated"
   ],
   "note": "Does not hold of the code as stated; the negation is proved: **C181** (violated). Within a struct in a struct what a later document does not mention is kept; behind a pointer it is lost, because a fresh variable is made (enc/handler.go L60-73)."
  },
  {
   "property": "C182",
   "status": "proved",
   "theorems": [
    "Verif.Enc.Versions.C182_node",
    "Verif.Enc.Versions.C182_json",
    "Verif.Enc.Versions.C182_fields"
   ],
   "note": ""
  },
  {
   "property": "C183",
   "status": "proved",
   "theorems": [
    "Verif.Api.Skew.C183_request",
    "Verif.Api.Skew.C183_response",
    "Verif.Api.Skew.C183_call",
    "Verif.Api.Skew.C183_refused",
    "Verif.Http.Skew.C183_http",
    "Verif.Http.Skew.C183_http_refused"
   ],
   "note": ""
  },
  {
   "property": "C184",
   "status": "partial",
   "theorems": [
    "Verif.Ws.Shared.C184_alone_partial",
    "Verif.Ws.Shared.C184_flat_partial",
    "Verif.Ws.Shared.C184_seen_violated",
    "Verif.Ws.Shared.C184_lost_violated"
   ],
   "note": "Does not hold of the code as stated; the negation is proved: is violated: what one client sends can be seen by another one, on a connection and channel of its own: the same call there, alone, sees what was registered. is violated: and of two clients that add one, at the same time, one may be lost. What is proved instead: as long as no method writes what the registered object leads to, a channel is as if there were no others: its object, and what its calls have seen. and if no field of the registered object is a reference, this is so whatever the methods do."
  },
  {
   "property": "C185",
   "status": "partial",
   "theorems": [
    "Verif.Http.Requests.C185_tags_partial",
    "Verif.Http.Requests.C185_differ_partial",
    "Verif.Http.Requests.C185_same_violated",
    "Verif.Http.Requests.C185_empty_violated",
    "Verif.Http.Requests.C185_logged_partial",
    "Verif.Http.Requests.C185_ws_partial",
    "Verif.Http.Requests.C185_ws_violated",
    "Verif.Http.Requests.C185_warning_violated"
   ],
   "note": "Does not hold of the code as stated; the negation is proved: whatever the context given to `Listen`, two requests that fail inside of the server with the same status get the same answer, whoever sent them, whatever they asked for and whatever went wrong: the tracking id, which is all that a client is told of an internal error, does not tell which request failed. if the context given to `Listen` was made without `WithTracking` and `Span`, the answer to a request that fails inside of the server has an empty tracking id. if it has one, all websocket connections of the server have the same tracking id. the warning that a handler has sent a second status shows no tag at all, so not the request either. What is proved instead: a log line of a request shows its path, its user agent, the address of its client and that of the listener, and otherwise the tags of the context given to `Listen`: nothing of other requests. Missing: something that tells requests of one client for one path apart. requests that differ in path, user agent or client have different log lines. the tracking id in the answer is the one in the log lines of the request, unless tags of that name are attached otherwise. Missing: that it belongs to that request only. if the context given to `Listen` has no tracking id, every websocket connection gets the one made for it, in its context and in its log lines. Missing: the contexts that have one (`C185_ws_violated`)."
  },
  {
   "property": "C186",
   "status": "proved",
   "theorems": [
    "Verif.Http.Requests.C186_request",
    "Verif.Http.Requests.C186_call",
    "Verif.Http.Requests.C186_ws",
    "Verif.Http.Requests.C186_others",
    "Verif.Http.Requests.C186_deadline"
   ],
   "note": ""
  },
  {
   "property": "C187",
   "status": "partial",
   "theorems": [
    "Verif.Http.Logged.C187_failed_partial",
    "Verif.Http.Logged.C187_kept_partial",
    "Verif.Http.Logged.C187_call_violated",
    "Verif.Http.Logged.C187_sent_partial",
    "Verif.Http.Logged.C187_gzip_partial",
    "Verif.Http.Logged.C187_gzip_violated",
    "Verif.Http.Logged.C187_unsent_violated",
    "Verif.Http.Logged.C187_ws_violated",
    "Verif.Http.Logged.C187_panic_partial"
   ],
   "note": "Does not hold of the code as stated; the negation is proved: of an error of a `Call` handler nothing is logged, and nothing of it is sent but its code: calls that fail with the same code, for whatever reasons, look the same to clients and in the log. a gzipped response can be cut short, its last chunk, which `Close` writes, being lost, without a line in the log. that an error could not be sent is not logged: the lines are the same whether its response gets through or not. a method called over a websocket that returns an error, and an `Init` that does, leave no line in the log, and the connection goes on. What is proved instead: when a request fails, be it because of its body, its inputs or what it does, exactly one line is logged, and it has the text of the error; and such a line is logged only then. Missing: handlers of `Call` and websockets, and failures of sending the response. nothing gets lost: internal errors with different texts, which clients can not tell apart, differ in the log. a response that is not gzipped is sent whole exactly if nothing is logged, for requests and for calls. of a gzipped response, what fails while it is compressed is logged. Missing: what fails when the rest is written (`C187_gzip_violated`). a method that panics is logged, once, and the loop is told; and nothing else is logged as a panic."
  },
  {
   "property": "C188",
   "status": "partial",
   "theorems": [
    "Verif.Sync.Stall.C188_free_partial",
    "Verif.Sync.Stall.C188_iff_partial",
    "Verif.Sync.Stall.C188_holders_partial",
    "Verif.Sync.Stall.C188_apart_partial",
    "Verif.Sync.Stall.C188_scrape_violated",
    "Verif.Sync.Stall.C188_cache_violated",
    "Verif.Sync.Stall.C188_store_violated"
   ],
   "note": "Does not hold of the code as stated; the negation is proved: a scraper that stops reading holds up requests. Whatever the goroutines are to do, if goroutine 0 is to scrape a histogram of which `n` is the series the iteration begins with, there is a state in which it is writing, and in which no goroutine that has still to observe something for this series, as every request of this method, path and status has in the end, can be finished until it goes on. a fetch that does not return holds up all calls of its cache, for other keys, for keys that are there, and `Invalidate`. a logger that does not return, called by `Range`, holds up all other calls of the store. What is proved instead: whatever has happened, and whoever has stopped, a goroutine none of whose calls uses a mutex that one of them holds can be finished. Missing: those whose calls do (`C188_iff_partial`, and the violations below). and exactly those can be finished that have still to lock none of these mutexes. Missing: that all can. what goroutines hold while they are in calls out: scrapes hold the series they write, lookups the cache they fetch for, requests the entry they fetch, ranges the store while they log, and senders their connection. So observations wait only for scrapes, of that series, lookups only for fetches for that cache, requests only for fetches of that entry, senders only for senders on that connection, and nobody waits for the registry, for counters, or for the function given to `Range`. goroutines that only observe counters, or histograms whose series nobody scrapes, or use caches, entries, stores and connections that no stopped goroutine has to do with, are finished whoever has stopped."
  },
  {
   "property": "C189",
   "status": "partial",
   "theorems": [
    "Verif.Ws.Skew.C189_reply_partial",
    "Verif.Ws.Skew.C189_call_partial",
    "Verif.Ws.Skew.C189_lost_partial",
    "Verif.Ws.Skew.C189_gained_partial",
    "Verif.Ws.Skew.C189_open_partial",
    "Verif.Ws.Skew.C189_unknown_violated"
   ],
   "note": "Does not hold of the code as stated; the negation is proved: violated: a client that calls a method which the server does not have, or opens an object it does not have, loses its connection, with all its channels: what it sends after that is not looked at. What is proved instead: a reply, sent as one version of a type, is read by the client as another one. a method is called with what is left of the client's argument in the server's version of its type. a method that has lost its argument is called, whatever older clients send. a method that has gained an argument gets zero from older clients, which send none. an object is opened with what is left of the client's argument of `Init`."
  },
  {
   "property": "C190",
   "status": "partial",
   "theorems": [
    "Verif.Caches.Panics.C190_lru_partial",
    "Verif.Caches.Panics.C190_mem_partial",
    "Verif.Caches.Panics.C190_request_partial",
    "Verif.Caches.Panics.C190_next_partial",
    "Verif.Caches.Panics.C190_room_violated"
   ],
   "note": "Does not hold of the code as stated; the negation is proved: violated: `Request` makes room for the result before it has one: a fetch that panics, or whose result is not to be kept, pushes out the result of another key, which was to be served. What is proved instead: however goroutines use an `LRU`, and whichever of the miss functions panic: when the mutex is free, and it is once all have returned or panicked, the cache is what it would be if the calls with a panicking miss function had not been made, the others answered as if they had not, and those hit or panicked themselves. the same for `Mem`, which is a partial function: a call whose miss function panics leaves it alone. whichever fetches panic, no request panics for another reason, and what is served is what the latest fetch for the key which did not panic returned, until it expires. a request whose fetch panicked has left nothing that is served: the next request for the key, which is not earlier, fetches."
  },
  {
   "property": "C191",
   "status": "partial",
   "theorems": [
    "Verif.Ws.Kept.C191_names_partial",
    "Verif.Ws.Kept.C191_forever_violated",
    "Verif.Ws.Kept.C191_failed_violated",
    "Verif.Ws.Kept.C191_many_violated"
   ],
   "note": "Does not hold of the code as stated; the negation is proved: is violated: a channel that was opened is kept as long as the connection, whatever frames follow, closes of the channel among them, and whatever the objects do. is violated: so is one whose object refused to be made, or panicked being made; it is in the way of nothing and serves nothing. is violated: clients choose how many channels a connection keeps, each with a copy of the template. For any number of names there are as many channels after opening them, and that is still so whatever is sent afterwards, such as a close for each. What is proved instead: what is kept are the channels that were opened, and nothing else that clients send adds to them: after any frames the names of the channels are different from each other, each is one the client opened for an object that is registered, and if no frame failed each name they opened is there. So their number is the number of names opened, however often each of them was. What is missing is that channels that are not used any more are forgotten: see `C191_forever_violated`."
  }
 ]
}