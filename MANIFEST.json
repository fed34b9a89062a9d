{
 "claims": [
  {
   "property": "C01",
   "status": "proved",
   "theorems": [
    "Verif.Props.C01_pause_iff_guard"
   ],
   "note": ""
  },
  {
   "property": "C02",
   "status": "proved",
   "theorems": [
    "Verif.Props.C02_resume_iff_no_guard",
    "Verif.Props.C02_never_with_guard",
    "Verif.Props.C02_only_responses"
   ],
   "note": "The response must belong to a call in flight; a late response after completion only leaves a mark in the history."
  },
  {
   "property": "C03",
   "status": "proved",
   "theorems": [
    "Verif.Props.C03_denied_not_forwarded"
   ],
   "note": ""
  },
  {
   "property": "C04",
   "status": "proved",
   "theorems": [
    "Verif.Props.C04_no_policy_after_end",
    "Verif.Props.C04_later_callbacks"
   ],
   "note": ""
  },
  {
   "property": "C05",
   "status": "proved",
   "theorems": [
    "Verif.Props.C05_one_reply",
    "Verif.Props.C05_terminal_needed"
   ],
   "note": "Holds when every deny action of the configuration is terminal, as the property says; the second theorem is a configuration with a non-terminal deny action and two replies."
  },
  {
   "property": "C06",
   "status": "proved",
   "theorems": [
    "Verif.Props.C06_after_dependencies",
    "Verif.Props.C06_transitively",
    "Verif.Props.C06_only_calls"
   ],
   "note": "for gRPC actions at top level; C06_transitively follows chains; C06_only_calls shows that other kinds of action do not wait for their dependencies"
  },
  {
   "property": "C07",
   "status": "proved",
   "theorems": [
    "Verif.Props.C07_printed",
    "Verif.Props.C07_sequential",
    "Verif.Props.C07_parallel",
    "Verif.Props.C07_legacy",
    "Verif.Props.C07_all_legacy",
    "Verif.Props.C07_no_cycle"
   ],
   "note": "sequential, parallel and legacy actions, as the transitive closure of the computed dependencies"
  },
  {
   "property": "C08",
   "status": "proved",
   "theorems": [
    "Verif.Props.C08_fails_closed",
    "Verif.Props.C08_cannot_send",
    "Verif.Props.C08_error_status",
    "Verif.Props.C08_undecodable",
    "Verif.Props.C04_no_policy_after_end",
    "Verif.Props.C08_postponed_fails_open",
    "Verif.Props.C08_reply_fails_open"
   ],
   "note": "C08_cannot_send, C08_error_status and C08_undecodable say what counts as a failure, C08_fails_closed what follows it; nothing queued is executed afterwards by C04. The last two are witnesses that the restrictions (top level, not postponed before) are needed: a postponed action loses its failure mode."
  },
  {
   "property": "C09",
   "status": "proved",
   "theorems": [
    "Verif.Props.C09_fails_open",
    "Verif.Props.C08_cannot_send",
    "Verif.Props.C08_error_status",
    "Verif.Props.C08_undecodable"
   ],
   "note": "the causes of failure are those of C08"
  },
  {
   "property": "C10",
   "status": "proved",
   "theorems": [
    "Verif.Props.C10_order",
    "Verif.Props.C10_visible",
    "Verif.Props.C10_skipped"
   ],
   "note": ""
  },
  {
   "property": "C11",
   "status": "proved",
   "theorems": [
    "Verif.Props.C11_at_most_once",
    "Verif.Props.C11_after_all_work",
    "Verif.Props.C11_exported"
   ],
   "note": ""
  },
  {
   "property": "C12",
   "status": "proved",
   "theorems": [
    "Verif.Props.C12_unknown_token",
    "Verif.Props.C12_second_delivery"
   ],
   "note": ""
  },
  {
   "property": "C13",
   "status": "proved",
   "theorems": [
    "Verif.Props.C13_slot",
    "Verif.Props.C13_own_response",
    "Verif.Props.C08_error_status",
    "Verif.Props.C08_undecodable"
   ],
   "note": "C13_own_response is the case of success; C08_error_status and C08_undecodable are the cases in which the status or the message of the response is bad."
  },
  {
   "property": "C14",
   "status": "proved",
   "theorems": [
    "Verif.Props.C14_completes",
    "Verif.Props.C14_completes_start",
    "Verif.Props.C14_unfinished",
    "Verif.Props.C14_unfinished_start",
    "Verif.Props.C14_results",
    "Verif.Props.C14_failure_blocks"
   ],
   "note": "Assumes that the host gives different tokens to calls in flight. C14_failure_blocks shows what happens with a failure: a dependent authorization call is never sent, the request is passed on, and the response is held back for ever."
  },
  {
   "property": "C15",
   "status": "proved",
   "theorems": [
    "Verif.Props.C15_end_of_body",
    "Verif.Props.C15_completion_resumes",
    "Verif.Props.C15_resumed_before_completion",
    "Verif.Props.C15_hangs"
   ],
   "note": "The last two are witnesses of what the property does not promise: the hold may end before completion, and it may last for ever."
  },
  {
   "property": "C16",
   "status": "proved",
   "theorems": [
    "Verif.Props.C16_counted_once",
    "Verif.Props.C16_miss",
    "Verif.Props.C16_routing_error",
    "Verif.Props.C16_hit",
    "Verif.Props.C16_denied"
   ],
   "note": "Building may panic (invalid tracking header expression); then nothing is counted."
  },
  {
   "property": "C17",
   "status": "proved",
   "theorems": [
    "Verif.Props.C17_most_specific",
    "Verif.Props.C17_unique",
    "Verif.Props.C17_exact",
    "Verif.Props.C17_not_bare",
    "Verif.Props.C17_other_exact",
    "Verif.Props.C17_dollar",
    "Verif.Props.C17_no_backtracking"
   ],
   "note": "Ordinary characters: no dollar sign in hostnames, no leading asterisk in the request host; C17_dollar shows that this is needed. C17_no_backtracking is a witness that a less specific hostname is never tried."
  },
  {
   "property": "C18",
   "status": "proved",
   "theorems": [
    "Verif.Props.C18_host",
    "Verif.Props.C18_config"
   ],
   "note": ""
  },
  {
   "property": "C19",
   "status": "proved",
   "theorems": [
    "Verif.Props.C19_first_set",
    "Verif.Props.C17_most_specific"
   ],
   "note": "C19_first_set for predicates whose outcome does not depend on when they are tested, C17_most_specific in general (relation FirstOf)."
  },
  {
   "property": "C20",
   "status": "proved",
   "theorems": [
    "Verif.Props.C20_lossless",
    "Verif.Props.C20_cut",
    "Verif.Props.C20_whole"
   ],
   "note": "for every notion of alphabetic character"
  },
  {
   "property": "C21",
   "status": "proved",
   "theorems": [
    "Verif.Props.C21_round_trip",
    "Verif.Props.C21_trailing",
    "Verif.Props.C21_no_sharing",
    "Verif.Props.C21_backslash",
    "Verif.Props.C21_shared"
   ],
   "note": "C21_backslash and C21_shared are witnesses that both claims fail with backslashes."
  },
  {
   "property": "C22",
   "status": "proved",
   "theorems": [
    "Verif.Props.C22_stable",
    "Verif.Props.C22_own_bytes",
    "Verif.Props.C22_own_headers",
    "Verif.Props.C22_header_maps",
    "Verif.Props.C22_header_map_of_host",
    "Verif.Props.C22_not_remembered",
    "Verif.Props.C22_failed_write"
   ],
   "note": "Paths without backslashes; see C21_shared for the others."
  },
  {
   "property": "C23",
   "status": "proved",
   "theorems": [
    "Verif.Props.C23_header_action",
    "Verif.Props.setAll_replaced"
   ],
   "note": ""
  },
  {
   "property": "C24",
   "status": "proved",
   "theorems": [
    "Verif.Props.C24_pending",
    "Verif.Props.C24_latest"
   ],
   "note": "A writer is alive from the construction of its store task until the task is dropped (Rust ownership, tasks/store.rs L38-61)."
  },
  {
   "property": "C25",
   "status": "proved",
   "theorems": [
    "Verif.Props.C25_prefix"
   ],
   "note": ""
  },
  {
   "property": "C26",
   "status": "proved",
   "theorems": [
    "Verif.Props.C26_innermost",
    "Verif.Props.C26_unbound",
    "Verif.Props.C26_isolated",
    "Verif.Props.C26_session"
   ],
   "note": ""
  },
  {
   "property": "C27",
   "status": "proved",
   "theorems": [
    "Verif.Props.C27_chunks",
    "Verif.Props.C27_split_inside_character"
   ],
   "note": "Chunks must end at character boundaries, as the property says; the second theorem shows the restriction is needed."
  },
  {
   "property": "C28",
   "status": "proved",
   "theorems": [
    "Verif.Props.C28_events",
    "Verif.Props.C28_standard_data",
    "Verif.Props.C28_leading_empty_data_lost",
    "Verif.Props.C28_trailing_empty_data_lost"
   ],
   "note": "Joining of data lines is as the code does it; equal to the HTML standard when no data line is empty, different otherwise (witnesses)."
  },
  {
   "property": "C29",
   "status": "proved",
   "theorems": [
    "Verif.Props.C29_store",
    "Verif.Props.C29_values",
    "Verif.Props.C29_tokens"
   ],
   "note": ""
  },
  {
   "property": "C30",
   "status": "proved",
   "theorems": [
    "Verif.Props.C30_json",
    "Verif.Props.C30_json_values",
    "Verif.Props.C30_request",
    "Verif.Props.C30_events",
    "Verif.Props.C30_tokens",
    "Verif.Props.C30_json_in_chunks",
    "Verif.Props.C30_events_accumulated",
    "Verif.Props.C30_events_reevaluated"
   ],
   "note": "C30_request is about whole requests, the others about the evaluations of one action. The last three are the deviations: JSON bodies need a host that accumulates, event streams one that does not, and a call response between two chunks makes a store action read the same chunk again."
  },
  {
   "property": "C31",
   "status": "proved",
   "theorems": [
    "Verif.Props.C31_int",
    "Verif.Props.C31_uint",
    "Verif.Props.C31_words",
    "Verif.Props.C31_rest",
    "Verif.Props.C31_int_text",
    "Verif.Props.C31_uint_text",
    "Verif.Props.C31_strings_confused",
    "Verif.Props.C31_signedness_deviation"
   ],
   "note": "Finding: the contents of a JSON string such as \"true\" or \"42\" become a boolean or an integer in plain JSON bodies."
  },
  {
   "property": "C32",
   "status": "proved",
   "theorems": [
    "Verif.Props.C32_contained",
    "Verif.Props.C32_literal",
    "Verif.Props.C32_one_line",
    "Verif.Props.C32_ratelimit_request",
    "Verif.Props.C32_auth_request",
    "Verif.Props.C32_hits_not_escaped"
   ],
   "note": "Besides the literals the whole generated requests are shown to parse as the intended messages. C32_hits_not_escaped is the witness that a static ratelimit.hits_addend is not quoted."
  },
  {
   "property": "C33",
   "status": "proved",
   "theorems": [
    "Verif.Props.C33_conjunction",
    "Verif.Props.C33_all",
    "Verif.Props.C33_auth",
    "Verif.Props.C33_unambiguous",
    "Verif.Props.C33_comment"
   ],
   "note": "For predicates that do not end in a comment; C33_comment is the witness that the condition is needed."
  },
  {
   "property": "C34",
   "status": "proved",
   "theorems": [
    "Verif.Props.C34_decided",
    "Verif.Props.C34_on_host",
    "Verif.Props.C34_no_status",
    "Verif.Props.C34_no_status_on_host",
    "Verif.Props.VerdictDemo.C34_denial_ignored"
   ],
   "note": "C34_on_host is about host, cache and filter together: it assumes of the host only that it takes replies, headers and properties and gives header maps, and of the CEL library only that it follows the language (Spec/CelLib) for the texts of the reply actions. C34_decided is the same for any environment. About the actual reply actions; the CEL interpreter is assumed to evaluate their texts as the grammar and Spec/CelEval say, and the host to take replies and headers, in the contexts that occur during the request. C34_no_status: a denial without status (or with a negative one) is not enforced, C34_denial_ignored is a complete run."
  },
  {
   "property": "C35",
   "status": "proved",
   "theorems": [
    "Verif.Props.C35_on_host",
    "Verif.Props.C35_decided",
    "Verif.Props.C35_started",
    "Verif.Props.C35_later",
    "Verif.Props.C35_report"
   ],
   "note": "C35_on_host as C34_on_host. C35_decided, C35_started and C35_later assume the interpreter as in C34, C35_report assumes nothing about it. C35_decided covers a host that has the headers of the response when the reply arrives and one that does not have them yet; C35_later says that in the second case they are set in the callback in which the host has them."
  },
  {
   "property": "C36",
   "status": "proved",
   "theorems": [
    "Verif.Props.C36_embedded",
    "Verif.Props.C36_timer_on",
    "Verif.Props.C36_timer_off",
    "Verif.Props.C36_timer_kept",
    "Verif.Props.C36_embedded_not_requested",
    "Verif.Props.C36_stays",
    "Verif.Props.C36_faithful",
    "Verif.Props.C36_requested",
    "Verif.Props.C36_fetched",
    "Verif.Props.C36_again",
    "Verif.Props.C36_delivered",
    "Verif.Props.C36_overridden",
    "Verif.Props.C36_collision",
    "Verif.Props.C36_rejected_requested"
   ],
   "note": "Embedded descriptors are kept if nothing was received for the service before it was configured; C36_overridden is the witness that they are replaced otherwise, C36_collision that the 64-bit hash must not collide, C36_rejected_requested that services of a rejected configuration are requested."
  },
  {
   "property": "C37",
   "status": "proved",
   "theorems": [
    "Verif.Props.C37_in_force",
    "Verif.Props.C37_rejected",
    "Verif.Props.C37_in_flight",
    "Verif.Props.C37_descriptors",
    "Verif.Props.C37_trace_filter"
   ],
   "note": "C37_trace_filter is the witness that the level of the trace filter is taken over from a rejected configuration."
  },
  {
   "property": "C38",
   "status": "proved",
   "theorems": [
    "Verif.Props.C38_round_trip",
    "Verif.Props.C38_message",
    "Verif.Props.C38_given",
    "Verif.Props.C38_not_given",
    "Verif.Props.C38_mismatch",
    "Verif.Props.C38_type",
    "Verif.Props.C38_time",
    "Verif.Props.C38_wraps",
    "Verif.Props.C38_wraps_unsigned",
    "Verif.Props.C38_wraps_to_zero",
    "Verif.Props.C38_keys_merge",
    "Verif.Props.C38_key_type",
    "Verif.Props.C38_free_form",
    "Verif.Props.C38_any_struct",
    "Verif.Props.C38_alternatives"
   ],
   "note": "C38_wraps to C38_alternatives are the cases in which values do not survive: numbers out of range, keys of the wrong type, free-form types, two alternatives at once."
  },
  {
   "property": "C39",
   "status": "proved",
   "theorems": [
    "Verif.Props.C39_path",
    "Verif.Props.C39_rejected",
    "Verif.Props.C39_attribute",
    "Verif.Props.C39_on_host",
    "Verif.Props.C39_on_host_other"
   ],
   "note": "C39_on_host and C39_on_host_other say what expressions see under request.grpc, from what the host says about content type and path."
  },
  {
   "property": "C40",
   "status": "proved",
   "theorems": [
    "Verif.Props.C40_list",
    "Verif.Props.C40_other",
    "Verif.Props.C40_lists",
    "Verif.Props.C40_structs"
   ],
   "note": ""
  },
  {
   "property": "C41",
   "status": "proved",
   "theorems": [
    "Verif.Props.C41_bounded",
    "Verif.Props.C41_newest",
    "Verif.Props.C41_export",
    "Verif.Props.C41_complete",
    "Verif.Props.C41_once",
    "Verif.Props.C41_warned",
    "Verif.Props.C41_zero"
   ],
   "note": "The capacity is at least one; C41_zero shows that a buffer of capacity zero would hold one span."
  },
  {
   "property": "C42",
   "status": "proved",
   "theorems": [
    "Verif.Props.C42_parts",
    "Verif.Props.C42_first",
    "Verif.Props.C42_repeats",
    "Verif.Props.C42_decode",
    "Verif.Props.C42_decode_plain",
    "Verif.Props.C42_decode_any",
    "Verif.Props.C42_decode_unique",
    "Verif.Props.C42_round_trip",
    "Verif.Props.C42_second_equals",
    "Verif.Props.C42_plus",
    "Verif.Props.C42_method",
    "Verif.Props.C42_empty"
   ],
   "note": "C42_second_equals, C42_plus and C42_method are deviations from what a user may expect. The urlencoding crate is modelled from its source."
  },
  {
   "property": "C43",
   "status": "proved",
   "theorems": [
    "Verif.Props.C43_charAt",
    "Verif.Props.C43_charAt_beyond",
    "Verif.Props.C43_substring",
    "Verif.Props.C43_substring_tail",
    "Verif.Props.C43_substring_order",
    "Verif.Props.C43_substring_beyond",
    "Verif.Props.C43_split",
    "Verif.Props.C43_split_limit",
    "Verif.Props.C43_split_zero",
    "Verif.Props.C43_split_chars",
    "Verif.Props.C43_join",
    "Verif.Props.C43_join_plain",
    "Verif.Props.C43_join_error",
    "Verif.Props.C43_join_split",
    "Verif.Props.C43_split_join",
    "Verif.Props.C43_replace",
    "Verif.Props.C43_replace_count",
    "Verif.Props.C43_replace_empty",
    "Verif.Props.C43_trim",
    "Verif.Props.C43_trim_unique",
    "Verif.Props.C43_lower",
    "Verif.Props.C43_upper",
    "Verif.Props.C43_indexOf",
    "Verif.Props.C43_indexOf_none",
    "Verif.Props.C43_indexOf_from",
    "Verif.Props.C43_lastIndexOf",
    "Verif.Props.C43_lastIndexOf_none",
    "Verif.Props.C43_lastIndexOf_from",
    "Verif.Props.C43_offset_panics",
    "Verif.Props.C43_no_panic",
    "Verif.Props.C43_ascii",
    "Verif.Props.C43_offsets_differ",
    "Verif.Props.C43_last_relative",
    "Verif.Props.C43_wraps"
   ],
   "note": "Positions in 0..2^32; C43_offsets_differ, C43_last_relative, C43_offset_panics and C43_wraps are the deviations."
  },
  {
   "property": "C44",
   "status": "proved",
   "theorems": [
    "Verif.Props.C44_reached",
    "Verif.Props.C44_shortest",
    "Verif.Props.C44_stored",
    "Verif.Props.C44_available",
    "Verif.Props.C44_waits"
   ],
   "note": ""
  },
  {
   "property": "C45",
   "status": "proved",
   "theorems": [
    "Verif.Props.C45_covered",
    "Verif.Props.C45_exact",
    "Verif.Props.C45_body_fields",
    "Verif.Props.C45_method_result"
   ],
   "note": "C45_method_result is the witness that a field selected from the result of a method is taken for a field of the attribute."
  },
  {
   "property": "C46",
   "status": "proved",
   "theorems": [
    "Verif.Props.C46_same_id",
    "Verif.Props.C46_incoming",
    "Verif.Props.C46_incoming_tracked",
    "Verif.Props.C46_generated",
    "Verif.Props.C46_rewritten",
    "Verif.Props.C46_incoming_on_host",
    "Verif.Props.C46_incoming_tracked_on_host",
    "Verif.Props.C46_generated_on_host"
   ],
   "note": "The id is fixed at its first use: with a tracking header that is before any action, otherwise at the first call. C46_rewritten is a witness that an action replacing the header before the first use changes the id. The response header needs a parser that reads a list literal as that list. The _on_host theorems are about a host and the filter together: they only assume what the host answers for the request headers at the first callback."
  },
  {
   "property": "C47",
   "status": "proved",
   "theorems": [
    "Verif.Props.C47_first_outcome",
    "Verif.Props.C47_left_to_right",
    "Verif.Props.C47_empty"
   ],
   "note": ""
  },
  {
   "property": "C48",
   "status": "proved",
   "theorems": [
    "Verif.Props.C48_reply",
    "Verif.Props.C48_truncated"
   ],
   "note": "C48_truncated is a witness that a status that does not fit 32 bits is truncated, as the property allows."
  },
  {
   "property": "C49",
   "status": "proved",
   "theorems": [
    "Verif.Props.C49_exported_name",
    "Verif.Props.C49_exported_read",
    "Verif.Props.C49_dot"
   ],
   "note": "C49_dot is a witness that a dot within a segment breaks the claim."
  },
  {
   "property": "C50",
   "status": "proved",
   "theorems": [
    "Verif.Props.C50_remote_address",
    "Verif.Props.C50_ipv6"
   ],
   "note": "C50_ipv6 is the witness of the deviation."
  },
  {
   "property": "C51",
   "status": "proved",
   "theorems": [
    "Verif.Props.C51_unsigned",
    "Verif.Props.C51_signed",
    "Verif.Props.C51_timestamp",
    "Verif.Props.C51_length"
   ],
   "note": ""
  },
  {
   "property": "C52",
   "status": "proved",
   "theorems": [
    "Verif.Props.C52_joined"
   ],
   "note": ""
  },
  {
   "property": "C53",
   "status": "proved",
   "theorems": [
    "Verif.Props.C53_not_again",
    "Verif.Props.C53_one_result",
    "Verif.Props.C53_one_call"
   ],
   "note": ""
  },
  {
   "property": "C54",
   "status": "proved",
   "theorems": [
    "Verif.Props.C54_ratelimit_predicate",
    "Verif.Props.C54_ternary"
   ],
   "note": "C54_ternary is the witness for a bare conditional alone in one of several blocks."
  },
  {
   "property": "C55",
   "status": "proved",
   "theorems": [
    "Verif.Props.C55_attribute",
    "Verif.Props.C55_grpc",
    "Verif.Props.C55_no_grpc",
    "Verif.Props.C55_stored",
    "Verif.Props.C55_stored_name",
    "Verif.Props.C55_scope",
    "Verif.Props.C55_five_roots",
    "Verif.Props.C55_bare_root",
    "Verif.Props.C55_body",
    "Verif.Props.C55_body_other",
    "Verif.Props.C55_connection",
    "Verif.Props.C55_index",
    "Verif.Props.C55_computed_field",
    "Verif.Props.C55_labels"
   ],
   "note": "C55_five_roots, C55_connection, C55_index, C55_computed_field and C55_labels are the deviations."
  },
  {
   "property": "C56",
   "status": "proved",
   "theorems": [
    "Verif.Props.C56_export",
    "Verif.Props.C56_shape",
    "Verif.Props.C56_unchanged"
   ],
   "note": "Writing the message as bytes is prost's."
  },
  {
   "property": "C57",
   "status": "proved",
   "theorems": [
    "Verif.Props.C57_types",
    "Verif.Props.C57_ends",
    "Verif.Props.C57_declared",
    "Verif.Props.C57_free_form"
   ],
   "note": "C57_free_form: fields of type google.protobuf.Struct are declared as structs but their values are maps."
  },
  {
   "property": "C58",
   "status": "proved",
   "theorems": [
    "Verif.Props.C58_value",
    "Verif.Props.C58_meaningless",
    "Verif.Props.C58_missing",
    "Verif.Props.C58_pending",
    "Verif.Props.C58_headers",
    "Verif.Props.C58_types",
    "Verif.Props.C58_response_headers"
   ],
   "note": "C58_response_headers is a deviation: response.headers can never be read by an expression. serde_json is a parameter."
  },
  {
   "property": "C59",
   "status": "proved",
   "theorems": [
    "Verif.Props.C59_configured",
    "Verif.Props.C59_sent",
    "Verif.Props.C59_legacy"
   ],
   "note": "Whether a message can be encoded is an arbitrary function of service and value."
  },
  {
   "property": "C60",
   "status": "proved",
   "theorems": [
    "Verif.Props.C60_caused"
   ],
   "note": "The cases of the specification are in Spec/Cause.lean."
  },
  {
   "property": "C61",
   "status": "proved",
   "theorems": [
    "Verif.Props.C61_means",
    "Verif.Props.C61_read",
    "Verif.Props.C61_fail_open",
    "Verif.Props.C61_failure_mode_required",
    "Verif.Props.C61_guard",
    "Verif.Props.C61_no_scope",
    "Verif.Props.C61_unknown",
    "Verif.Props.C61_in_force",
    "Verif.Props.C61_fallback"
   ],
   "note": "The document is the tree of a JSON text; serde's alternative forms (structures as arrays, words as objects) are not modelled. C61_fallback is the deviation."
  },
  {
   "property": "C62",
   "status": "proved",
   "theorems": [
    "Verif.Props.C62_read",
    "Verif.Props.C62_configure",
    "Verif.Props.C62_rejected_leftovers"
   ],
   "note": "C62_rejected_leftovers is a deviation: what a rejected document leaves behind depends on the order."
  },
  {
   "property": "C63",
   "status": "proved",
   "theorems": [
    "Verif.Props.C63_changes_add_up",
    "Verif.Props.C63_host_has_last"
   ],
   "note": "On the composed model (Model/World, Model/Session). Hosts that change a header map only when told to."
  },
  {
   "property": "C64",
   "status": "proved",
   "theorems": [
    "Verif.Props.C64_snapshot",
    "Verif.Props.C64_expression",
    "Verif.Props.C64_grpc_not_remembered"
   ],
   "note": "C64_grpc_not_remembered is the deviation."
  },
  {
   "property": "C65",
   "status": "proved",
   "theorems": [
    "Verif.Props.C65_property",
    "Verif.Props.C65_headers",
    "Verif.Props.C65_body",
    "Verif.Props.C65_response",
    "Verif.Props.C65_no_dropped_write",
    "Verif.Props.C65_empty_answer_fails"
   ],
   "note": "C65_empty_answer_fails is the deviation."
  },
  {
   "property": "C66",
   "status": "proved",
   "theorems": [
    "Verif.Props.C66_calls"
   ],
   "note": "The correspondence is in Spec/Session.lean."
  },
  {
   "property": "C67",
   "status": "proved",
   "theorems": [
    "Verif.Props.C67_as_data",
    "Verif.Props.C67_injected",
    "Verif.Props.C67_no_expression",
    "Verif.Props.C67_crash"
   ],
   "note": "C67_injected, C67_no_expression and C67_crash are the deviations."
  },
  {
   "property": "C68",
   "status": "proved",
   "theorems": [
    "Verif.Props.C68_answered",
    "Verif.Props.C68_success",
    "Verif.Props.C68_authorized",
    "Verif.Props.C68_within_limit",
    "Verif.Props.C68_authorized_on_host",
    "Verif.Props.C68_within_limit_on_host",
    "Verif.Props.C68_late_guard",
    "Verif.Props.C68_body_guard"
   ],
   "note": "C68_authorized_on_host and C68_within_limit_on_host are about host, cache and filter together, with the assumptions of C34_on_host. C68_late_guard and C68_body_guard are the deviations."
  },
  {
   "property": "C69",
   "status": "proved",
   "theorems": [
    "Verif.Props.C69_headers",
    "Verif.Props.C69_untraced",
    "Verif.Props.C69_untraced_carried",
    "Verif.Props.C69_traced",
    "Verif.Props.C69_decorated",
    "Verif.Props.C69_mixed_deviation",
    "Verif.Props.C69_inherited_deviation",
    "Verif.Props.C69_silent_deviation"
   ],
   "note": "The behaviour of the tracing and opentelemetry crates (a stack of entered spans per thread, extraction on top of the current context) is an assumption of the model: their sources are not in the sandbox. The last three are the deviations, which rest on it."
  },
  {
   "property": "C70",
   "status": "proved",
   "theorems": [
    "Verif.Props.C70_services",
    "Verif.Props.C70_incomplete",
    "Verif.Props.C70_call",
    "Verif.Props.C70_failure_mode"
   ],
   "note": "What is configured is in Spec/Services.lean."
  },
  {
   "property": "C71",
   "status": "proved",
   "theorems": [
    "Verif.Props.C71_looked_for",
    "Verif.Props.C71_only",
    "Verif.Props.C71_unread_deviation"
   ],
   "note": "C71_unread_deviation is the deviation. That a task which looks for fields finds them is C30_tokens."
  },
  {
   "property": "C72",
   "status": "proved",
   "theorems": [
    "Verif.Props.C72_call",
    "Verif.Props.C72_once",
    "Verif.Props.C72_complete",
    "Verif.Props.C72_scope",
    "Verif.Props.C72_refused_deviation"
   ],
   "note": "C72_refused_deviation is the deviation. The spans and their protobuf form are given by the opentelemetry crates and are parameters."
  },
  {
   "property": "C73",
   "status": "proved",
   "theorems": [
    "Verif.Props.C73_reservations",
    "Verif.Props.C73_waits",
    "Verif.Props.C73_waits_deny",
    "Verif.Props.C73_later_writer",
    "Verif.Props.C73_writer_below",
    "Verif.Props.C73_cycle"
   ],
   "note": "The last three are deviations. C73_waits takes the registry of reservations as given by C73_reservations; in the model it is a function of the history."
  },
  {
   "property": "C74",
   "status": "proved",
   "theorems": [
    "Verif.Props.C74_lines",
    "Verif.Props.C74_traces",
    "Verif.Props.C74_stale",
    "Verif.Props.C74_root"
   ],
   "note": "What the tracing crates do with filters and events is an assumption of the model, stated in Model/Observability: their sources are not in the sandbox."
  },
  {
   "property": "C75",
   "status": "proved",
   "theorems": [
    "Verif.Props.C75_calls",
    "Verif.Props.C75_totals",
    "Verif.Props.C75_counter",
    "Verif.Props.C75_requests",
    "Verif.Props.C75_allowed_deviation"
   ],
   "note": "The last one is a deviation."
  },
  {
   "property": "C76",
   "status": "proved",
   "theorems": [
    "Verif.Props.C76_limit",
    "Verif.Props.C76_check",
    "Verif.Props.C76_limit_sent",
    "Verif.Props.C76_check_sent",
    "Verif.Props.C76_unconditional_deviation"
   ],
   "note": "What the interpreter gives for the constructs of the generated text is an assumption (Evaluator, met by Cel.eval); the meaning of the configured expressions is left open. Only texts and integers are given a meaning as text. The last one is a deviation."
  },
  {
   "property": "C77",
   "status": "proved",
   "theorems": [
    "Verif.Props.C77_started",
    "Verif.Props.C77_started_first",
    "Verif.Props.C77_held_back",
    "Verif.Props.C77_held_back_first",
    "Verif.Props.C77_retried"
   ],
   "note": "Requests whose host reuses a token of a call that is still out are not covered. An action that fails holds back the calls behind it for the rest of the request."
  },
  {
   "property": "C78",
   "status": "proved",
   "theorems": [
    "Verif.Props.C78_reply",
    "Verif.Props.C78_value",
    "Verif.Props.C78_unique"
   ],
   "note": "Decoding the bytes of an answer into fields is prost-reflect's. C78_unique says that the specification of what a message says determines one value."
  },
  {
   "property": "C79",
   "status": "proved",
   "theorems": [
    "Verif.Props.C79_limit",
    "Verif.Props.C79_check",
    "Verif.Props.C79_no_status_deviation"
   ],
   "note": "From the fields of the message to the log of the filter, for host, attribute cache, CEL environment and filter together. The host provides headers and takes what is set (Obliging), and CEL evaluates the expressions of the reply actions as CEL defines them (Cel.Follows). C79_check assumes that a denial has a status; C79_no_status_deviation is about one that has none (F19)."
  },
  {
   "property": "C80",
   "status": "proved",
   "theorems": [
    "Verif.Props.C80_limit_sent",
    "Verif.Props.C80_check_sent",
    "Verif.Props.C80_hits_deviation"
   ],
   "note": "The fields of the messages are given in Spec/WireRequest (limitOn, CheckFacts.On). The message types have the fields the services publish (RequestDescs, shown for concrete descriptors in WireRequestDemo) and bytes are an unspecified function of the message. CEL evaluates the generated expressions as E (ValuedBy). The facts are such that every attribute has a value of its type (TrueFacts); when one has none, there is no message and C76 and C05 apply."
  },
  {
   "property": "C81",
   "status": "proved",
   "theorems": [
    "Verif.Props.C81_check",
    "Verif.Props.C81_limit"
   ],
   "note": "What the proxy says is Spec.Given (bytes of a property, in every state of the proxy, with the value that C58 gives them; headers of the request when it begins); Fact.Stands adds that the filter has put nothing in its place. The service gets the message of C80 with these values. Assumed of the CEL library: it evaluates the text of the message as the language does (Cel.Follows) and its syntax tree refers to the attributes the text mentions (Cel.Mirrors). Shown for a concrete host, library and configuration in HostFactsDemo."
  },
  {
   "property": "C82",
   "status": "proved",
   "theorems": [
    "Verif.Props.C82_served",
    "Verif.Props.C82_uncovered"
   ],
   "note": "The host is read from the property request.host, lower-cased and without its port (hostOf). What the proxy says is Spec.Reported. A predicate is decided by it (Spec.FactsDecide) if it mentions reported attributes only and, as a text of the language, has the value in every environment that agrees with them. Assumed of the CEL library: it evaluates the text as the language does and its syntax tree refers to exactly the attributes the text mentions. While a pipeline is chosen no task exists, so nothing is reserved in the store (hres). Hostnames with a dollar sign are excluded, as in C17. Shown for a concrete host, library and configuration in RoutedDemo."
  },
  {
   "property": "C83",
   "status": "proved",
   "theorems": [
    "Verif.Props.C83_called",
    "Verif.Props.C83_spared",
    "Verif.Props.C83_first"
   ],
   "note": "The attributes must stand (Spec.Fact.Stands): the host gives the value whenever it is asked, and neither a store of the action set nor a write recorded in the log touches it. Conditions and message are decided by them (Spec.FactsDecide). An action is started where the log records it; C77 says when that happens, and C83_first says it for the first action of a set. Assumed: the library reads both texts and follows the language, the encoder accepts the message, and the host takes the call (htakes). The reserved names of the store are those of the action set (hres). Shown for a concrete host, library and configuration in CalledDemo."
  }
 ]
}