{
 "claims": [
  {
   "property": "C01",
   "status": "proved",
   "theorems": [
    "Verif.C01_in_rules",
    "Verif.C01_decode_inverts_encoding",
    "Verif.C01_every_string_has_encoding"
   ],
   "note": "Every spelling of s as literals, %XX escapes and '+' decodes to s with error count 0; every byte string has such a spelling."
  },
  {
   "property": "C02",
   "status": "proved",
   "theorems": [
    "Verif.C02_length_le"
   ],
   "note": ""
  },
  {
   "property": "C03",
   "status": "proved",
   "theorems": [
    "Verif.C03_in_rules",
    "Verif.C03_error_count",
    "Verif.C03_plain_unchanged",
    "Verif.C03_malformed_kept"
   ],
   "note": ""
  },
  {
   "property": "C04",
   "status": "proved",
   "theorems": [
    "Verif.C04_in_rules",
    "Verif.C04_in_rules_plain",
    "Verif.C04_uni_escape",
    "Verif.C04_agrees_without_percent_u"
   ],
   "note": ""
  },
  {
   "property": "C05",
   "status": "partial",
   "theorems": [
    "Verif.C05_fullwidth_partial",
    "Verif.C05_all_codes",
    "Verif.C05_refuted"
   ],
   "note": "Full-width forms %uFF01..%uFF5E become their ASCII twins in every context: proved. The other %uFFxx codes should give their own character but the code adds 0x20 to the low byte for all of them (%uFF61 becomes U+0081, %uFF00 a space): refuted. C05_all_codes: what the code gives for every %uFFxx."
  },
  {
   "property": "C06",
   "status": "proved",
   "theorems": [
    "Verif.C06_anywhere",
    "Verif.C06_case_insensitive_any",
    "Verif.C06_in_rules",
    "Verif.C06_lowercase_pointwise",
    "Verif.C06_idempotent",
    "Verif.C06_case_insensitive"
   ],
   "note": ""
  },
  {
   "property": "C07",
   "status": "proved",
   "theorems": [
    "Verif.C07_in_rules",
    "Verif.C07_removeWhitespace",
    "Verif.C07_removeNulls",
    "Verif.C07_replaceNulls",
    "Verif.C07_absent",
    "Verif.C07_idempotent"
   ],
   "note": ""
  },
  {
   "property": "C08",
   "status": "proved",
   "theorems": [
    "Verif.C08_in_rules",
    "Verif.C08_no_double_space",
    "Verif.C08_run_collapses",
    "Verif.C08_single_spaces_unchanged",
    "Verif.C08_other_bytes_kept",
    "Verif.C08_idempotent"
   ],
   "note": ""
  },
  {
   "property": "C09",
   "status": "proved",
   "theorems": [
    "Verif.C09_condition",
    "Verif.C09_none_is_neutral"
   ],
   "note": ""
  },
  {
   "property": "C10",
   "status": "proved",
   "theorems": [
    "Verif.C10_compare",
    "Verif.C10_every_int64"
   ],
   "note": ""
  },
  {
   "property": "C11",
   "status": "proved",
   "theorems": [
    "Verif.C11_value_as_zero",
    "Verif.C11_bad_argument"
   ],
   "note": ""
  },
  {
   "property": "C12",
   "status": "proved",
   "theorems": [
    "Verif.C12_count"
   ],
   "note": ""
  },
  {
   "property": "C13",
   "status": "proved",
   "theorems": [
    "Verif.C13_status",
    "Verif.C13_code_from_call"
   ],
   "note": ""
  },
  {
   "property": "C14",
   "status": "proved",
   "theorems": [
    "Verif.C14_length_within_limit",
    "Verif.C14_over_limit_refused",
    "Verif.C14_within_limit_accepted"
   ],
   "note": ""
  },
  {
   "property": "C15",
   "status": "partial",
   "theorems": [
    "Verif.C15_write_never_panics",
    "Verif.C15_memory_within_limit_partial",
    "Verif.C15_memory_growth",
    "Verif.C15_refuted"
   ],
   "note": "Write never panics: proved. The memory bound holds for every history in which creating the temporary file never fails; it is refuted otherwise."
  },
  {
   "property": "C16",
   "status": "proved",
   "theorems": [
    "Verif.C16_memory_body_exact"
   ],
   "note": ""
  },
  {
   "property": "C17",
   "status": "partial",
   "theorems": [
    "Verif.C17_spilled_content_partial",
    "Verif.C17_aligned_partial",
    "Verif.C17_exact",
    "Verif.C17_refuted"
   ],
   "note": "A spilled body is not the concatenation of the writes unless the writes line up with the memory limit; refuted in general, exact content of the file proved. C17_exact: writes read back as their concatenation iff they fit in memory or some of the first ones fill it exactly."
  },
  {
   "property": "C18",
   "status": "partial",
   "theorems": [
    "Verif.C18_refuted",
    "Verif.C18_write_never_refused_for_read",
    "Verif.C18_spilled_body_overwritten"
   ],
   "note": "Refuted: writing after reading a spilled body overwrites its beginning. The exact behaviour is proved."
  },
  {
   "property": "C19",
   "status": "partial",
   "theorems": [
    "Verif.C19_read_from_start_partial",
    "Verif.C19_read_restarts",
    "Verif.C19_refuted"
   ],
   "note": "Each Read restarts at the beginning of the body, so sequential reads do not cover it; refuted, first read proved."
  },
  {
   "property": "C20",
   "status": "proved",
   "theorems": [
    "Verif.C20_response_body",
    "Verif.C20_accepts",
    "Verif.C20_equal_limits"
   ],
   "note": "For every sequence of API calls and every I/O behaviour; host-written actions must leave the body buffers alone."
  },
  {
   "property": "C21",
   "status": "proved",
   "theorems": [
    "Verif.C21_loaded",
    "Verif.C21_each_rule_once",
    "Verif.C21_phases_forward",
    "Verif.C21_refuted_without_forward"
   ],
   "note": "Proved under the condition in the statement (RuleSet.Forward); a theorem shows the condition is needed."
  },
  {
   "property": "C22",
   "status": "proved",
   "theorems": [
    "Verif.C22_registration_order",
    "Verif.C22_no_skip"
   ],
   "note": ""
  },
  {
   "property": "C23",
   "status": "partial",
   "theorems": [
    "Verif.C23_loaded",
    "Verif.C23_verdict_stops_phase",
    "Verif.C23_verdict_kept_partial",
    "Verif.C23_refuted"
   ],
   "note": "Within a phase: proved. Across phases the verdict can be erased; refuted, and proved for rule sets whose actions keep a verdict. Also proved for every rule set loaded from a text."
  },
  {
   "property": "C24",
   "status": "proved",
   "theorems": [
    "Verif.C24_abort_final",
    "Verif.C24_host_abort",
    "Verif.C24_fetch_abort"
   ],
   "note": ""
  },
  {
   "property": "C25",
   "status": "proved",
   "theorems": [
    "Verif.C25_result",
    "Verif.C25_new_is_neutral",
    "Verif.C25_result_twice",
    "Verif.C25_reset",
    "Verif.C25_log_accumulates"
   ],
   "note": ""
  },
  {
   "property": "C26",
   "status": "proved",
   "theorems": [
    "Verif.C26_deny",
    "Verif.C26_stored_status",
    "Verif.C26_status_persists"
   ],
   "note": ""
  },
  {
   "property": "C27",
   "status": "proved",
   "theorems": [
    "Verif.C27_only_group_order_matters",
    "Verif.C27_group_sequence",
    "Verif.C27_builtin_order",
    "Verif.C27_status_then_deny"
   ],
   "note": ""
  },
  {
   "property": "C28",
   "status": "proved",
   "theorems": [
    "Verif.C28_chain",
    "Verif.C28_conditions_have_no_effect"
   ],
   "note": ""
  },
  {
   "property": "C29",
   "status": "proved",
   "theorems": [
    "Verif.C29_skip_skips_one"
   ],
   "note": ""
  },
  {
   "property": "C30",
   "status": "partial",
   "theorems": [
    "Verif.C30_allow_request_diverges",
    "Verif.C30_allow_logging_diverges",
    "Verif.C30_block_default_diverges",
    "Verif.C30_refuted",
    "Verif.C30_loaded_terminates",
    "Verif.C30_loaded_history",
    "Verif.C30_terminates_partial"
   ],
   "note": "Termination proved for rule sets with forward jumps and no block among default actions, if the library's form reader returns or no rule looks at the fields of a body (when it does not return, see C124; C124_calls_return is the same for the forms that can be read); three families of divergent rule sets proved to diverge for every amount of fuel."
  },
  {
   "property": "C31",
   "status": "partial",
   "theorems": [
    "Verif.C31_rest_skipped_partial",
    "Verif.C31_refuted"
   ],
   "note": "The rest of the current and every later phase is skipped - including the logging phase, contrary to the claim."
  },
  {
   "property": "C32",
   "status": "partial",
   "theorems": [
    "Verif.C32_rest_of_phase_skipped_partial",
    "Verif.C32_allow_request_skips_response_headers",
    "Verif.C32_refuted"
   ],
   "note": "The rest of the phase is skipped, but so is the whole next phase, contrary to the claim."
  },
  {
   "property": "C33",
   "status": "partial",
   "theorems": [
    "Verif.C33_refuted",
    "Verif.C33_mode_ignored"
   ],
   "note": "Refuted (both halves): the mode flags are never consulted. Proved instead: every mode gives the same transactions, results and evaluations."
  },
  {
   "property": "C34",
   "status": "proved",
   "theorems": [
    "Verif.C34_invalid_phase"
   ],
   "note": ""
  },
  {
   "property": "C35",
   "status": "proved",
   "theorems": [
    "Verif.C35_registration",
    "Verif.C35_registration_sequence"
   ],
   "note": ""
  },
  {
   "property": "C36",
   "status": "proved",
   "theorems": [
    "Verif.C36_client",
    "Verif.C36_log_line",
    "Verif.C36_phase_digit",
    "Verif.C36_every_line"
   ],
   "note": ""
  },
  {
   "property": "C37",
   "status": "proved",
   "theorems": [
    "Verif.C37_isolation",
    "Verif.C37_no_blocking",
    "Verif.C37_host"
   ],
   "note": ""
  },
  {
   "property": "C38",
   "status": "proved",
   "theorems": [
    "Verif.C38_order_irrelevant",
    "Verif.C38_rule",
    "Verif.C38_fetch",
    "Verif.C38_every_range",
    "Verif.C38_loading"
   ],
   "note": ""
  },
  {
   "property": "C39",
   "status": "proved",
   "theorems": [
    "Verif.C39_block_is_default_actions",
    "Verif.C39_block_without_defaults",
    "Verif.C39_defaults_add_up",
    "Verif.C39_loaded_block"
   ],
   "note": ""
  },
  {
   "property": "C40",
   "status": "partial",
   "theorems": [
    "Verif.C40_selected",
    "Verif.C40_selectors_partial",
    "Verif.C40_refuted"
   ],
   "note": "Proved for selector lists whose inclusions are all literal or all regular expressions; refuted when both kinds are included (the code requires both), and the exact selection is proved for every list."
  },
  {
   "property": "C41",
   "status": "partial",
   "theorems": [
    "Verif.C41_names_values",
    "Verif.C41_post",
    "Verif.C41_agree_partial",
    "Verif.C41_no_url",
    "Verif.C41_refuted"
   ],
   "note": "Map level (names once, values of those names, counts): proved. Variable level: proved for every collection variable, for request headers once a URL is known; refuted for REQUEST_HEADERS_NAMES before ProcessRequestURL, which is empty while REQUEST_HEADERS is not."
  },
  {
   "property": "C42",
   "status": "proved",
   "theorems": [
    "Verif.C42_cookies",
    "Verif.C42_repeated",
    "Verif.C42_no_cookie",
    "Verif.C42_every_line",
    "Verif.C42_one_reading"
   ],
   "note": ""
  },
  {
   "property": "C43",
   "status": "proved",
   "theorems": [
    "Verif.C43_basename",
    "Verif.C43_unique"
   ],
   "note": ""
  },
  {
   "property": "C44",
   "status": "proved",
   "theorems": [
    "Verif.C44_gate",
    "Verif.C44_content_type",
    "Verif.C44_request_body",
    "Verif.C44_args_post",
    "Verif.C44_request_body_history"
   ],
   "note": ""
  },
  {
   "property": "C45",
   "status": "proved",
   "theorems": [
    "Verif.C45_rejected",
    "Verif.C45_no_action",
    "Verif.C45_phase_stops",
    "Verif.C45_history"
   ],
   "note": ""
  },
  {
   "property": "C46",
   "status": "partial",
   "theorems": [
    "Verif.C46_again_partial",
    "Verif.C46_malformed",
    "Verif.C46_stale",
    "Verif.C46_refuted"
   ],
   "note": "Refuted by a malformed urlencoded body, which is shown to be the only cause; staleness after further chunks is proved as well."
  },
  {
   "property": "C47",
   "status": "partial",
   "theorems": [
    "Verif.C47_panics_iff",
    "Verif.C47_well_formed_partial",
    "Verif.C47_no_names_partial",
    "Verif.C47_refuted",
    "Verif.C47_crash",
    "Verif.C47_loaded_no_panic"
   ],
   "note": "The exact condition of the panic is proved; refuted by a malformed multipart request. No call sequence panics when the form reader never fails, or when no rule reads body argument names."
  },
  {
   "property": "C48",
   "status": "proved",
   "theorems": [
    "Verif.C48_union",
    "Verif.C48_selectors"
   ],
   "note": ""
  },
  {
   "property": "C49",
   "status": "proved",
   "theorems": [
    "Verif.C49_request_uri"
   ],
   "note": ""
  },
  {
   "property": "C50",
   "status": "proved",
   "theorems": [
    "Verif.C50_quoted",
    "Verif.C50_quoted_gap",
    "Verif.C50_exact",
    "Verif.C50_injective"
   ],
   "note": ""
  },
  {
   "property": "C51",
   "status": "partial",
   "theorems": [
    "Verif.C51_hangs_iff",
    "Verif.C51_loops_forever",
    "Verif.C51_literal",
    "Verif.C51_terminates_partial",
    "Verif.C51_printed",
    "Verif.C51_crlf_hangs",
    "Verif.C51_refuted"
   ],
   "note": "Refuted by a CRLF line continuation between tokens. Proved: the texts on which the parser does not return are exactly those of Spec.Hangs (a backslash not followed by a line feed where a token should begin); every text whose backslashes are all followed by a line feed terminates."
  },
  {
   "property": "C52",
   "status": "proved",
   "theorems": [
    "Verif.C52_no_panic",
    "Verif.C52_returns",
    "Verif.C52_splitMulti"
   ],
   "note": ""
  },
  {
   "property": "C53",
   "status": "proved",
   "theorems": [
    "Verif.C53_exact",
    "Verif.C53_round_trip",
    "Verif.C53_prefix",
    "Verif.C53_determined"
   ],
   "note": ""
  },
  {
   "property": "C54",
   "status": "proved",
   "theorems": [
    "Verif.C54_case_insensitive",
    "Verif.C54_switch"
   ],
   "note": ""
  },
  {
   "property": "C55",
   "status": "proved",
   "theorems": [
    "Verif.C55_legal_phase",
    "Verif.C55_zero_iff",
    "Verif.C55_bad_phase",
    "Verif.C55_error_propagates"
   ],
   "note": ""
  },
  {
   "property": "C56",
   "status": "proved",
   "theorems": [
    "Verif.C56_loads_iff",
    "Verif.C56_loaded_rule",
    "Verif.C56_not_ignored",
    "Verif.C56_line",
    "Verif.C56_line_actions"
   ],
   "note": ""
  },
  {
   "property": "C57",
   "status": "proved",
   "theorems": [
    "Verif.C57_chains",
    "Verif.C57_group_chain",
    "Verif.C57_group_single",
    "Verif.C57_group_other",
    "Verif.C57_all_rules"
   ],
   "note": ""
  },
  {
   "property": "C58",
   "status": "proved",
   "theorems": [
    "Verif.C58_rules",
    "Verif.C58_switches",
    "Verif.C58_text"
   ],
   "note": ""
  },
  {
   "property": "C59",
   "status": "partial",
   "theorems": [
    "Verif.C59_syntax_error_partial",
    "Verif.C59_semantic_error",
    "Verif.C59_loads_iff",
    "Verif.C59_refuted"
   ],
   "note": "A text with a syntax error leaves the set as it was: proved. Refuted for semantic errors (unknown action, malformed operator argument, ...): the directives before the bad one stay in the set. Exactly which texts load, and what a failing one leaves behind, is proved."
  },
  {
   "property": "C60",
   "status": "partial",
   "theorems": [
    "Verif.C60_one_step_early_partial",
    "Verif.C60_refuted"
   ],
   "note": "Refuted: each SecLang phase n is run by the call documented for phase n-1 (phase:1 at the connection). Proved: a loaded rule is evaluated by exactly one kind of call, one step earlier than documented, and none at logging."
  },
  {
   "property": "C61",
   "status": "proved",
   "theorems": [
    "Verif.C61_variables",
    "Verif.C61_one_name",
    "Verif.C61_bare_exclusion"
   ],
   "note": ""
  },
  {
   "property": "C62",
   "status": "proved",
   "theorems": [
    "Verif.C62_deny_rule",
    "Verif.C62_request",
    "Verif.C62_history"
   ],
   "note": ""
  },
  {
   "property": "C63",
   "status": "proved",
   "theorems": [
    "Verif.C63_same_iff_permutation"
   ],
   "note": ""
  },
  {
   "property": "C64",
   "status": "partial",
   "theorems": [
    "Verif.C64_pattern_partial",
    "Verif.C64_exact",
    "Verif.C64_escaped",
    "Verif.C64_refuted"
   ],
   "note": "Refuted by \\d. Proved: the typed pattern is the compiled one iff it has no backslash; every pattern gets through if its special bytes are escaped."
  },
  {
   "property": "C65",
   "status": "partial",
   "theorems": [
    "Verif.C65_no_comma",
    "Verif.C65_argument_partial",
    "Verif.C65_exact",
    "Verif.C65_injected",
    "Verif.C65_refuted"
   ],
   "note": "Refuted: a comma in a quoted message ends it and can inject further actions (C65_injected). Proved for messages without comma; no accepted text has a rule with a comma in an action argument."
  },
  {
   "property": "C66",
   "status": "partial",
   "theorems": [
    "Verif.C66_no_separator",
    "Verif.C66_selector_partial",
    "Verif.C66_exact",
    "Verif.C66_split",
    "Verif.C66_refuted"
   ],
   "note": "Refuted by ARGS:/a|b/. Proved for selectors without ',' and '|'; no accepted text has a selector with one."
  },
  {
   "property": "C67",
   "status": "partial",
   "theorems": [
    "Verif.C67_in_force_partial",
    "Verif.C67_phases_given",
    "Verif.C67_refuted"
   ],
   "note": "Refuted by a rule without phase action. Proved: a loaded rule is in force iff its phase is given."
  },
  {
   "property": "C68",
   "status": "proved",
   "theorems": [
    "Verif.C68_loaded",
    "Verif.C68_call",
    "Verif.C68_history",
    "Verif.C68_new",
    "Verif.C68_variable",
    "Verif.C68_seen"
   ],
   "note": ""
  },
  {
   "property": "C69",
   "status": "partial",
   "theorems": [
    "Verif.C69_total",
    "Verif.C69_exact",
    "Verif.C69_well_formed_partial",
    "Verif.C69_body",
    "Verif.C69_refuted"
   ],
   "note": "Exact description of which pieces are inspected; complete for well-formed queries; refuted for malformed percent escapes (a=evil%). net/url.ParseQuery is modelled in Model/Query.lean as a value of Lib.parseQuery."
  },
  {
   "property": "C70",
   "status": "partial",
   "theorems": [
    "Verif.C70_reported_partial",
    "Verif.C70_loaded",
    "Verif.C70_pass",
    "Verif.C70_refuted"
   ],
   "note": "Refuted by the pass action; proved for rule sets without pass and for everything loaded from text."
  },
  {
   "property": "C71",
   "status": "partial",
   "theorems": [
    "Verif.C71_log_partial",
    "Verif.C71_refuted"
   ],
   "note": "Refuted: the line always says 403; holds exactly when the status is 403."
  },
  {
   "property": "C72",
   "status": "partial",
   "theorems": [
    "Verif.C72_prefix_partial",
    "Verif.C72_within_limit",
    "Verif.C72_request_partial",
    "Verif.C72_refuted"
   ],
   "note": "Refuted when a chunk is accepted after a refused one; proved otherwise (prefix), always a subsequence, whole within the limit."
  },
  {
   "property": "C73",
   "status": "partial",
   "theorems": [
    "Verif.C73_exact",
    "Verif.C73_canonical_partial",
    "Verif.C73_dead",
    "Verif.C73_refuted",
    "Verif.C73_lines",
    "Verif.C73_odd_names"
   ],
   "note": "Refuted; exact behaviour proved: canonical selectors see the header whatever the client's case, other spellings are dead; reading a request joins lines whose names differ in case only under one name, and names with a byte not allowed in RFC 7230 are kept as they are (C73_lines, C73_odd_names)."
  },
  {
   "property": "C74",
   "status": "proved",
   "theorems": [
    "Verif.C74_locality",
    "Verif.C74_added_rules"
   ],
   "note": ""
  },
  {
   "property": "C75",
   "status": "partial",
   "theorems": [
    "Verif.C75_exact_partial",
    "Verif.C75_equivalent",
    "Verif.C75_accepted",
    "Verif.C75_refuted"
   ],
   "note": "Refuted for path bytes outside RFC 3986; exact for all other targets, and for every target the path is re-encoded from the same bytes. Uses the model of net/url in Model/Url.lean."
  },
  {
   "property": "C76",
   "status": "partial",
   "theorems": [
    "Verif.C76_distinguishes_partial",
    "Verif.C76_fragment",
    "Verif.C76_written",
    "Verif.C76_any_path",
    "Verif.C76_refuted"
   ],
   "note": "Refuted for relative paths with a colon in the first segment; proved for rooted paths. C76_any_path: for any paths the only confusion is the ./ put before a path with a colon in its first segment."
  },
  {
   "property": "C77",
   "status": "partial",
   "theorems": [
    "Verif.C77_decoded_partial",
    "Verif.C77_target_partial",
    "Verif.C77_exact",
    "Verif.C77_refuted"
   ],
   "note": "Refuted for paths with '+'; proved otherwise. C77_exact: for rooted paths it holds iff there is no '+' in the path as written."
  },
  {
   "property": "C78",
   "status": "proved",
   "theorems": [
    "Verif.C78_running_keeps_rules",
    "Verif.C78_new_gets_new_rules"
   ],
   "note": ""
  },
  {
   "property": "C79",
   "status": "partial",
   "theorems": [
    "Verif.C79_refuted",
    "Verif.C79_begun_phases_partial",
    "Verif.C79_host_partial",
    "Verif.C79_later_phases_partial"
   ],
   "note": "Refuted: a rule registered for a later phase acts on transactions under way (C79_refuted). Proved: rules for phases already begun change nothing, rules for later phases act as if registered from the start."
  },
  {
   "property": "C80",
   "status": "proved",
   "theorems": [
    "Verif.C80_request_limit",
    "Verif.C80_response_limit",
    "Verif.C80_response_switch"
   ],
   "note": ""
  },
  {
   "property": "C81",
   "status": "proved",
   "theorems": [
    "Verif.C81_clean",
    "Verif.C81_failure"
   ],
   "note": ""
  },
  {
   "property": "C82",
   "status": "partial",
   "theorems": [
    "Verif.C82_refuted",
    "Verif.C82_leak",
    "Verif.C82_no_file_partial"
   ],
   "note": "Refuted: an open temporary file stays open through every call (C82_leak). Proved: no file within the in-memory limit, never one for the response body."
  },
  {
   "property": "C83",
   "status": "proved",
   "theorems": [
    "Verif.C83_policy"
   ],
   "note": ""
  },
  {
   "property": "C84",
   "status": "proved",
   "theorems": [
    "Verif.C84_policy"
   ],
   "note": ""
  },
  {
   "property": "C85",
   "status": "proved",
   "theorems": [
    "Verif.C85_snapshot",
    "Verif.C85_live",
    "Verif.C85_calls",
    "Verif.C85_history"
   ],
   "note": ""
  },
  {
   "property": "C86",
   "status": "partial",
   "theorems": [
    "Verif.C86_refuted",
    "Verif.C86_host_partial",
    "Verif.C86_overwritten"
   ],
   "note": "Refuted: after an abort Result returns a record whose log slice is the transaction's own (C86_refuted, C86_overwritten). Proved for arbitrary host changes to records returned before an abort and for field assignments to any returned record, in any interleaving."
  },
  {
   "property": "C87",
   "status": "proved",
   "theorems": [
    "Verif.C87_machine"
   ],
   "note": ""
  },
  {
   "property": "C88",
   "status": "proved",
   "theorems": [
    "Verif.C88_machine"
   ],
   "note": ""
  },
  {
   "property": "C89",
   "status": "partial",
   "theorems": [
    "Verif.C89_refuted",
    "Verif.C89_seek_partial",
    "Verif.C89_read_ignores",
    "Verif.C89_write_at_position"
   ],
   "note": "Refuted in full: a Read after a Seek returns the beginning of the body (C89_refuted, C89_read_ignores). Proved: the position Seek answers with, its errors, and that it leaves the body as it is; a write to a spilled body goes to the position sought."
  },
  {
   "property": "C90",
   "status": "partial",
   "theorems": [
    "Verif.C90_refuted",
    "Verif.C90_close_partial",
    "Verif.C90_closed_for_good"
   ],
   "note": "Refuted in full: Close of a body in memory panics (C90_refuted). Proved: exactly when Close panics, succeeds or fails, and that a closed body stays closed and empty through every further call."
  },
  {
   "property": "C91",
   "status": "proved",
   "theorems": [
    "Verif.C91_site"
   ],
   "note": ""
  },
  {
   "property": "C92",
   "status": "proved",
   "theorems": [
    "Verif.C92_exact_forms",
    "Verif.C92_exact",
    "Verif.C92_exact_bodies"
   ],
   "note": ""
  },
  {
   "property": "C93",
   "status": "partial",
   "theorems": [
    "Verif.C93_names_partial",
    "Verif.C93_values",
    "Verif.C93_refuted"
   ],
   "note": "Refuted for action arguments: the argument of skip is dropped (C93_refuted). Proved: names of all parts and operator arguments; C93_values says what Value gives for each action."
  },
  {
   "property": "C94",
   "status": "proved",
   "theorems": [
    "Verif.C94_any_orders",
    "Verif.C94_exact"
   ],
   "note": ""
  },
  {
   "property": "C95",
   "status": "proved",
   "theorems": [
    "Verif.C95_host"
   ],
   "note": ""
  },
  {
   "property": "C96",
   "status": "partial",
   "theorems": [
    "Verif.C96_never_ahead_partial",
    "Verif.C96_counted_partial",
    "Verif.C96_exact_partial",
    "Verif.C96_drift",
    "Verif.C96_refuted"
   ],
   "note": "Refuted: C96_drift, C96_refuted (a newline ending an unquoted argument is not counted). Proved: the number is never ahead of the line; every newline after a blank, CR or newline is counted in texts without backslashes; exact for CR LF files without backslashes."
  },
  {
   "property": "C97",
   "status": "partial",
   "theorems": [
    "Verif.C97_beginning_again",
    "Verif.C97_first_ask_partial",
    "Verif.C97_refuted",
    "Verif.C97_parser_runs",
    "Verif.C97_rest_unseen",
    "Verif.C97_rest_of_body_unseen",
    "Verif.C97_loaded_rest_unseen"
   ],
   "note": "Refuted: C97_refuted (a program that reads to the end of the file never stops on a body). Proved: what a program makes of a body is what it makes of the beginning of its bytes, given anew at each Read (C97_beginning_again); the full claim for programs that need only their first reply; that the parser runs the program on the body; that nothing depends on the bytes after the first N."
  },
  {
   "property": "C98",
   "status": "proved",
   "theorems": [
    "Verif.C98_exact",
    "Verif.C98_block_forever",
    "Verif.C98_no_operator"
   ],
   "note": ""
  },
  {
   "property": "C99",
   "status": "proved",
   "theorems": [
    "Verif.C99_inert",
    "Verif.C99_phase_fixed",
    "Verif.C99_built_later"
   ],
   "note": ""
  },
  {
   "property": "C100",
   "status": "partial",
   "theorems": [
    "Verif.C100_accepts_partial",
    "Verif.C100_calls",
    "Verif.C100_end_is_final",
    "Verif.C100_refuted",
    "Verif.C100_reads_on"
   ],
   "note": "Refuted: C100_refuted (a reader that fails after a whole directive: the directives before the failure are returned without an error). Proved: what is accepted is exactly what the bytes before the failure mean as a rule text, so a failure inside a directive is reported (C100_accepts_partial); agreement of all sequences of calls with the scanner on the string (C100_calls); the end is final as long as the reader gives no more bytes (C100_end_is_final). C100_reads_on: a reader that recovers is read on."
  },
  {
   "property": "C101",
   "status": "partial",
   "theorems": [
    "Verif.C101_refuted",
    "Verif.C101_takes",
    "Verif.C101_before_word_partial"
   ],
   "note": "Refuted: C101_refuted (SecRuleEngine On is no directive any more after StartsWith(\"SecRuleEngines\") answered false). Proved: exactly what is taken (C101_takes); for arguments of ASCII letters a ReadWord that follows gives the same word and leaves the same state (C101_before_word_partial)."
  },
  {
   "property": "C102",
   "status": "partial",
   "theorems": [
    "Verif.C102_package",
    "Verif.C102_reaches",
    "Verif.C102_new_token_partial",
    "Verif.C102_register_dire",
    "Verif.C102_refuted",
    "Verif.C102_from_seclang",
    "Verif.C102_string_directive",
    "Verif.C102_string_alone"
   ],
   "note": "Refuted: C102_refuted (a new name registered with the token of SecRuleEngine replaces the reader of SecRuleEngine). Proved: the claim if the token is new as well (C102_new_token_partial); what reads a word after any registrations (C102_reaches); that without registrations all is as in Model/Seclang (C102_package); RegisterDire (C102_register_dire); string directives from text to FromSecLang (C102_string_directive)."
  },
  {
   "property": "C103",
   "status": "partial",
   "theorems": [
    "Verif.C103_stops_at_error",
    "Verif.C103_package_partial",
    "Verif.C103_refuted"
   ],
   "note": "Refuted: C103_refuted (SecRuleEngine On before a directive of the host that fails stays in force). Proved: exactly which directives have been executed when there is an error (C103_stops_at_error); directives of the package never fail (C103_package_partial)."
  },
  {
   "property": "C104",
   "status": "partial",
   "theorems": [
    "Verif.C104_exact",
    "Verif.C104_letters_partial",
    "Verif.C104_refuted"
   ],
   "note": "Refuted: C104_refuted (SecRule2). Proved: usable exactly if the name is, up to case, one of letters only (C104_exact, C104_letters_partial)."
  },
  {
   "property": "C105",
   "status": "proved",
   "theorems": [
    "Verif.C105_one_moment",
    "Verif.C105_moments_in_order",
    "Verif.C105_loaded"
   ],
   "note": ""
  },
  {
   "property": "C106",
   "status": "partial",
   "theorems": [
    "Verif.C106_unseen_partial",
    "Verif.C106_refuted",
    "Verif.C106_limits"
   ],
   "note": "Refuted: C106_refuted (default actions added between two rules with block: one line is logged, before the addition none, after it two); the same with limits (C106_limits). Proved: the claim if no rule has block or no default action is added, and no rule reads a body or the limits stay (C106_unseen_partial)."
  },
  {
   "property": "C107",
   "status": "proved",
   "theorems": [
    "Verif.C107_some_order"
   ],
   "note": ""
  },
  {
   "property": "C108",
   "status": "partial",
   "theorems": [
    "Verif.C108_inspected_partial",
    "Verif.C108_arguments_partial",
    "Verif.C108_evaded",
    "Verif.C108_exactly",
    "Verif.C108_verdict_blind",
    "Verif.C108_loaded_blind",
    "Verif.C108_refuted"
   ],
   "note": "Refuted: C108_refuted ('; a=1; A=\"2\"' after the type). Proved with mime.ParseMediaType modelled: exactly when the body is shown (C108_exactly), what is shown otherwise (C108_evaded), and that then no output of any call depends on the body (C108_verdict_blind, C108_loaded_blind)."
  },
  {
   "property": "C109",
   "status": "partial",
   "theorems": [
    "Verif.C109_pieces",
    "Verif.C109_semicolon",
    "Verif.C109_one_boundary",
    "Verif.C109_malformed_nothing",
    "Verif.C109_boundary_partial",
    "Verif.C109_malformed",
    "Verif.C109_refuted"
   ],
   "note": "Refuted: C109_refuted ('; Boundary=foo; x'). Proved: the claim if only white space or a semicolon follows the parameters (C109_boundary_partial), and that otherwise the boundary is empty (C109_malformed), so that nothing of the body is read or shown (C109_malformed_nothing). Boundaries in pieces or with a character set (RFC 2231) are those the pieces give (C109_pieces), except before a final semicolon, where they are not looked at (C109_semicolon)."
  },
  {
   "property": "C110",
   "status": "partial",
   "theorems": [
    "Verif.C110_shown_partial",
    "Verif.C110_nameless",
    "Verif.C110_refuted"
   ],
   "note": "Refuted: C110_refuted (';a=1;a=1'). Proved: the claim without a repeated parameter, the empty value with one (C110_shown_partial), and for headers that name no media type (C110_nameless)."
  },
  {
   "property": "C111",
   "status": "partial",
   "theorems": [
    "Verif.C111_hands_off_partial",
    "Verif.C111_retold_headers",
    "Verif.C111_retold_response",
    "Verif.C111_retold_url",
    "Verif.C111_others",
    "Verif.C111_refuted"
   ],
   "note": "Refuted: C111_refuted (Content-Type deleted between headers and body). Proved: the claim, and the same end state, for hosts that change no object after handing it over, though they may share it between transactions (C111_hands_off_partial); a change of an object is like the corresponding call with the new content, which evaluates nothing (C111_retold_headers, C111_retold_response, C111_retold_url); transactions that do not refer to it are not touched (C111_others)."
  },
  {
   "property": "C112",
   "status": "partial",
   "theorems": [
    "Verif.C112_multipart_partial",
    "Verif.C112_first_refusal_multipart_partial",
    "Verif.C112_more_rules_partial",
    "Verif.C112_refuted",
    "Verif.C112_forms",
    "Verif.C112_bodies_partial",
    "Verif.C112_first_refusal_partial",
    "Verif.C112_first_refusal_bodies_partial",
    "Verif.C112_allow_phase",
    "Verif.C112_reset_unseen"
   ],
   "note": "Refuted: C112_refuted (a log rule inserted after a skipping rule pushes the deny into what is skipped); without skip, C112_forms (a malformed form read first by an added rule) and C112_allow_phase (a host that goes on after a refusal, and a rule that allows a phase). Proved: the claim verdict by verdict for texts whose old rules do not skip and only allow everything, that read no body (C112_more_rules_partial), or bodies of up to 131072 bytes and settled well-formed urlencoded forms (C112_bodies_partial); and, whatever the old rules allow, that the first refusal comes no later, if the host resets no verdict it has not looked at (C112_first_refusal_partial, C112_first_refusal_bodies_partial; C112_reset_unseen shows that this is needed). The same with complete multipart forms of up to 4096 bytes, as in C133 (C112_multipart_partial, C112_first_refusal_multipart_partial). Missing: larger bodies."
  },
  {
   "property": "C113",
   "status": "partial",
   "theorems": [
    "Verif.C113_chunks_partial",
    "Verif.C113_spilled_partial",
    "Verif.C113_loaded_partial",
    "Verif.C113_refuted",
    "Verif.C113_small_memory"
   ],
   "note": "Refuted: C113_refuted (beyond the limit of the body), C113_small_memory (within the limit, with less memory than ReadForm asks for). Proved: the claim for bodies within memory, for all rule sets whose actions leave the bodies alone (C113_chunks_partial); for bodies moved to temporary files, within the limit, and stock rules (C113_spilled_partial), in particular those loaded from text (C113_loaded_partial). Missing: failing temporary files."
  },
  {
   "property": "C114",
   "status": "proved",
   "theorems": [
    "Verif.C114_unread",
    "Verif.C114_loaded",
    "Verif.C114_destination",
    "Verif.C114_query",
    "Verif.C114_header",
    "Verif.C114_spelling"
   ],
   "note": ""
  },
  {
   "property": "C115",
   "status": "partial",
   "theorems": [
    "Verif.C115_multipart_partial",
    "Verif.C115_order_partial",
    "Verif.C115_bodies_partial",
    "Verif.C115_refuted"
   ],
   "note": "Refuted: C115_refuted (a malformed form, read by two rules). Proved: the claim, and that both texts load and run, for texts that read no body (C115_order_partial), and with bodies of up to 131072 bytes and settled well-formed urlencoded forms (C115_bodies_partial). The same with complete multipart forms of up to 4096 bytes, as in C133 (C115_multipart_partial). Missing: larger bodies."
  },
  {
   "property": "C116",
   "status": "partial",
   "theorems": [
    "Verif.C116_multipart_partial",
    "Verif.C116_split_partial",
    "Verif.C116_bodies_partial",
    "Verif.C116_refuted",
    "Verif.C116_names_partial",
    "Verif.C116_names_bodies_partial",
    "Verif.C116_names_multipart_partial",
    "Verif.C116_needed"
   ],
   "note": "Refuted: C116_refuted (an exclusion separated from what it excludes from). Proved: the claim if any variable the two parts share is not counted and picked from by name only, or by pattern only, in both, as in ARGS:a|ARGS:b (C116_names_partial, C116_names_bodies_partial, C116_names_multipart_partial; C116_needed shows that each of these conditions is needed), in particular if they share no variable, for texts that read no body (C116_split_partial), and with bodies of up to 131072 bytes and settled well-formed urlencoded forms (C116_bodies_partial). The same with complete multipart forms of up to 4096 bytes, as in C133 (C116_multipart_partial). Missing: larger bodies."
  },
  {
   "property": "C117",
   "status": "partial",
   "theorems": [
    "Verif.C117_one_text_partial",
    "Verif.C117_exact",
    "Verif.C117_refuted",
    "Verif.C117_return"
   ],
   "note": "Refuted: C117_refuted (an open chain), C117_return (a backslash and a carriage return at the end). Proved: the claim for every other first text (C117_one_text_partial); exactly when it holds, if the first does not end in a backslash and a carriage return (C117_exact)."
  },
  {
   "property": "C118",
   "status": "partial",
   "theorems": [
    "Verif.C118_created",
    "Verif.C118_nil",
    "Verif.C118_exact",
    "Verif.C118_kept_partial",
    "Verif.C118_refuted",
    "Verif.C118_response",
    "Verif.C118_again"
   ],
   "note": "Refuted: C118_refuted (a file at TmpPath). Proved: the claim if the directory was not there, or files can be made in it (C118_kept_partial); when a transaction is made (C118_created, C118_nil), which bodies it keeps (C118_exact), that response bodies are always kept (C118_response), that making another changes nothing (C118_again)."
  },
  {
   "property": "C119",
   "status": "partial",
   "theorems": [
    "Verif.C119_exact",
    "Verif.C119_unchanged_partial",
    "Verif.C119_refuted"
   ],
   "note": "Refuted: C119_refuted (a name that is too long). Proved: the claim if no name is refused (C119_unchanged_partial); exactly when it fails (C119_exact)."
  },
  {
   "property": "C120",
   "status": "proved",
   "theorems": [
    "Verif.C120_built",
    "Verif.C120_text",
    "Verif.C120_opposite",
    "Verif.C120_next",
    "Verif.C120_transformations",
    "Verif.C120_none",
    "Verif.C120_again",
    "Verif.C120_descriptions"
   ],
   "note": ""
  },
  {
   "property": "C121",
   "status": "partial",
   "theorems": [
    "Verif.C121_tests_partial",
    "Verif.C121_bodies_partial",
    "Verif.C121_refuted",
    "Verif.C121_multipart_partial"
   ],
   "note": "Refuted: C121_refuted (a malformed form). Proved: the claim, and that both texts load and run, for texts that read no body (C121_tests_partial), and with bodies of up to 131072 bytes and settled well-formed urlencoded forms (C121_bodies_partial). The same with complete multipart forms of up to 4096 bytes, as in C133 (C121_multipart_partial). Missing: larger bodies."
  },
  {
   "property": "C122",
   "status": "proved",
   "theorems": [
    "Verif.C122_disguise",
    "Verif.C122_loaded",
    "Verif.C122_dissolved",
    "Verif.C122_header",
    "Verif.C122_arguments",
    "Verif.C122_order",
    "Verif.C122_split_character"
   ],
   "note": ""
  },
  {
   "property": "C123",
   "status": "partial",
   "theorems": [
    "Verif.C123_fields_partial",
    "Verif.C123_cut",
    "Verif.C123_cut_unseen",
    "Verif.C123_loaded_blind",
    "Verif.C123_as_urlencoded",
    "Verif.C123_refuted"
   ],
   "note": "Refuted: C123_refuted. Proved: the claim for forms whose last line is ended, with any epilogue (C123_fields_partial), the agreement with the other encoding (C123_as_urlencoded), and what happens otherwise (C123_cut): no rule, loaded from whatever text, can then tell what the fields were (C123_cut_unseen, C123_loaded_blind). Left open: fields with a Content-Type, parts in quoted-printable encoding, files that do not fit in memory, forms whose last delimiter is not within the first 4096 bytes (of these C97 says that they are not read to the end, C124 and C125 what happens instead)."
  },
  {
   "property": "C124",
   "status": "partial",
   "theorems": [
    "Verif.C124_returns_partial",
    "Verif.C124_calls_return",
    "Verif.C124_hangs",
    "Verif.C124_call_hangs",
    "Verif.C124_refuted"
   ],
   "note": "Refuted: C124_refuted. Proved: for which forms it does not return (C124_hangs), whatever the fuel, and what this means for ProcessRequestBody (C124_call_hangs); that it returns otherwise, as far as listed (C124_returns_partial), and so do the calls (C124_calls_return). Left open: forms of more than 4096 bytes of which these end within a header, a delimiter, a file, or a part in quoted-printable encoding."
  },
  {
   "property": "C125",
   "status": "partial",
   "theorems": [
    "Verif.C125_in_time_partial",
    "Verif.C125_refused",
    "Verif.C125_call_refused",
    "Verif.C125_refuted"
   ],
   "note": "Refuted: C125_refuted. Proved: which forms are refused (C125_refused), and that ProcessRequestBody refuses them (C125_call_refused); that forms which end within 4096 bytes are not (C125_in_time_partial). Left open: as for C124."
  },
  {
   "property": "C126",
   "status": "proved",
   "theorems": [
    "Verif.C126_log_bounded",
    "Verif.C126_all_results",
    "Verif.C126_condition_needed",
    "Verif.C126_loaded"
   ],
   "note": "The hypothesis that rules do not jump back is needed: C126_condition_needed."
  },
  {
   "property": "C127",
   "status": "proved",
   "theorems": [
    "Verif.C127_log_lines",
    "Verif.C127_loaded"
   ],
   "note": ""
  },
  {
   "property": "C128",
   "status": "proved",
   "theorems": [
    "Verif.C128_transformed_length",
    "Verif.C128_any_library",
    "Verif.C128_sharp",
    "Verif.C128_loaded"
   ],
   "note": ""
  },
  {
   "property": "C129",
   "status": "proved",
   "theorems": [
    "Verif.C129_values_bounded",
    "Verif.C129_covers",
    "Verif.C129_loaded"
   ],
   "note": ""
  },
  {
   "property": "C130",
   "status": "partial",
   "theorems": [
    "Verif.C130_exact",
    "Verif.C130_partial",
    "Verif.C130_refuted",
    "Verif.C130_refused",
    "Verif.C130_memory"
   ],
   "note": "Refuted: C130_refuted (half a megabyte of response is refused), C130_refused (so is more than 128 MB of request). Proved: exactly which chunks are accepted (C130_exact), that nothing beyond the documented limits is (C130_partial), and that the limit for inspection is the documented one (C130_memory)."
  },
  {
   "property": "C131",
   "status": "proved",
   "theorems": [
    "Verif.C131_no_overflow",
    "Verif.C131_numbers",
    "Verif.C131_loaded",
    "Verif.C131_edge"
   ],
   "note": ""
  },
  {
   "property": "C132",
   "status": "partial",
   "theorems": [
    "Verif.C132_fields_partial",
    "Verif.C132_files_unseen",
    "Verif.C132_loaded_blind",
    "Verif.C132_refuted"
   ],
   "note": "Refuted: C132_refuted (a file named x). Proved: of the named parts exactly those without a file name are shown (C132_fields_partial); under rules of the library's parts no later output depends on anything but the fields (C132_files_unseen, C132_loaded_blind). Parts with a Content-Type or a transfer encoding, and forms larger than the reader's buffer, are not described by the model of ReadForm."
  },
  {
   "property": "C133",
   "status": "proved",
   "theorems": [
    "Verif.C133_machine",
    "Verif.C133_policy"
   ],
   "note": ""
  },
  {
   "property": "C134",
   "status": "proved",
   "theorems": [
    "Verif.C134_encoding"
   ],
   "note": ""
  },
  {
   "property": "C135",
   "status": "proved",
   "theorems": [
    "Verif.C135_keeps"
   ],
   "note": ""
  },
  {
   "property": "C136",
   "status": "partial",
   "theorems": [
    "Verif.C136_reading_partial",
    "Verif.C136_refuted",
    "Verif.C136_beyond",
    "Verif.C136_outgrown"
   ],
   "note": "False of the code: Bytes returns the slice of the buffer itself, and C136_refuted overwrites a body through it. Proved: hosts that do not assign (C136_reading_partial); what an assignment can change at most (C136_beyond); slices the body has outgrown (C136_outgrown)."
  },
  {
   "property": "C137",
   "status": "partial",
   "theorems": [
    "Verif.C137_exempt_partial",
    "Verif.C137_bodies_partial",
    "Verif.C137_multipart_partial",
    "Verif.C137_refuted",
    "Verif.C137_counted"
   ],
   "note": "Refuted: C137_refuted (a rule on the method, with an exclusion of a header, refuses for another header); C137_counted shows the same of a variable that is only counted. Proved: the claim, and that both texts load and run, if only variables listed and not counted have exclusions, for texts that read no body (C137_exempt_partial), with bodies of up to 131072 bytes and settled well-formed urlencoded forms (C137_bodies_partial), and with complete multipart forms as in C133 (C137_multipart_partial). Missing: larger bodies, malformed forms."
  },
  {
   "property": "C138",
   "status": "partial",
   "theorems": [
    "Verif.C138_exact",
    "Verif.C138_exact_bodies",
    "Verif.C138_exact_multipart",
    "Verif.C138_one_value_partial",
    "Verif.C138_refuted"
   ],
   "note": "Refuted: C138_refuted (no header at all: neither refuses). Proved: exactly when at least one and when both refuse, for rules that read no body (C138_exact), bodies of up to 131072 bytes (C138_exact_bodies) and multipart forms as in C133 (C138_exact_multipart); so the claim if there is exactly one value to compare (C138_one_value_partial). Missing: nothing of the exact description but larger bodies and malformed forms."
  },
  {
   "property": "C139",
   "status": "partial",
   "theorems": [
    "Verif.C139_narrower_partial",
    "Verif.C139_bodies_partial",
    "Verif.C139_multipart_partial",
    "Verif.C139_threshold",
    "Verif.C139_refuted"
   ],
   "note": "Refuted for malformed forms (C139_refuted: ARGS_POST against 1, and the same after a count of ARGS_POST). Proved: for rules that read no body (C139_narrower_partial), bodies of up to 131072 bytes with settled forms (C139_bodies_partial), multipart forms as in C133 (C139_multipart_partial); C139_threshold gives the comparisons that are stricter than others. Missing: larger bodies, malformed forms."
  },
  {
   "property": "C140",
   "status": "partial",
   "theorems": [
    "Verif.C140_allowing_partial",
    "Verif.C140_bodies_partial",
    "Verif.C140_multipart_partial",
    "Verif.C140_first_refusal_partial",
    "Verif.C140_first_refusal_bodies_partial",
    "Verif.C140_first_refusal_multipart_partial",
    "Verif.C140_refuted",
    "Verif.C140_allow_less"
   ],
   "note": "Refuted: C140_refuted (deny in phase 2, allow in phase 3, deny in phase 4; a host that goes on; a rule that logs put before the one that allows), C140_allow_less (allow:phase before allow). Proved: C140_allowing_partial, C140_bodies_partial, C140_multipart_partial (old rules that neither skip nor allow), C140_first_refusal_partial and its _bodies and _multipart forms (old rules that do not skip). Missing: larger bodies, malformed forms, allow:request in response phases (see C92)."
  },
  {
   "property": "C141",
   "status": "partial",
   "theorems": [
    "Verif.C141_written",
    "Verif.C141_own_partial",
    "Verif.C141_unnamed_partial",
    "Verif.C141_refuted",
    "Verif.C141_left_behind"
   ],
   "note": "Refuted: C141_refuted (a rule that logs names 404, another denies), C141_left_behind (the status of a verdict already taken). Proved: C141_own_partial (every rule that denies names a status between 100 and 599), C141_unnamed_partial (no rule names a status: always 403), and C141_written for all texts: 403, 413, the host's own, or a number between 100 and 599 written after status in a text in which some rule denies; and 200 for all that is let through."
  },
  {
   "property": "C142",
   "status": "partial",
   "theorems": [
    "Verif.C142_padded_partial",
    "Verif.C142_bodies_partial",
    "Verif.C142_multipart_partial",
    "Verif.C142_type_hides",
    "Verif.C142_refuted",
    "Verif.C142_counts"
   ],
   "note": "Refuted: C142_refuted, C142_type_hides (a Content-Type put before the one that is there hides the body from REQUEST_BODY). Proved: C142_padded_partial (rules that read no body, any headers and arguments added), C142_bodies_partial (first Content-Type unchanged, bodies up to 131072 bytes, forms settled and well-formed), C142_multipart_partial (multipart forms). C142_counts: rules that count are not covered, and cannot be. Missing: larger bodies, malformed forms."
  },
  {
   "property": "C143",
   "status": "partial",
   "theorems": [
    "Verif.C143_whole_partial",
    "Verif.C143_bodies_partial",
    "Verif.C143_multipart_partial",
    "Verif.C143_refuted"
   ],
   "note": "Refuted: C143_refuted (a malformed form, one rule that looks and one that counts). Proved: C143_whole_partial (rules that read no body), C143_bodies_partial (bodies up to 131072 bytes, forms settled and well-formed), C143_multipart_partial. Missing: larger bodies, malformed forms; rules that skip or allow are excluded by the claim itself."
  },
  {
   "property": "C144",
   "status": "partial",
   "theorems": [
    "Verif.C144_alternatives_partial",
    "Verif.C144_bodies_partial",
    "Verif.C144_multipart_partial",
    "Verif.C144_comparisons",
    "Verif.C144_patterns",
    "Verif.C144_refuted"
   ],
   "note": "Refuted: C144_refuted (&ARGS_POST @ge 1 against @gt 1 and @eq 1, on a malformed form, which two rules look at twice). Proved: C144_alternatives_partial (rules that read no body), C144_bodies_partial (bodies up to 131072 bytes, forms settled and well-formed), C144_multipart_partial; C144_comparisons and C144_patterns show which tests have alternatives. Missing: larger bodies, malformed forms; rules that skip or allow are excluded by the claim itself."
  },
  {
   "property": "C145",
   "status": "proved",
   "theorems": [
    "Verif.C145_rephased",
    "Verif.C145_bodies",
    "Verif.C145_multipart"
   ],
   "note": ""
  },
  {
   "property": "C146",
   "status": "proved",
   "theorems": [
    "Verif.C146_parts",
    "Verif.C146_reordered",
    "Verif.C146_bodies",
    "Verif.C146_multipart",
    "Verif.C146_pieces",
    "Verif.C146_fields",
    "Verif.C146_query_counts",
    "Verif.C146_type_counts"
   ],
   "note": ""
  },
  {
   "property": "C147",
   "status": "proved",
   "theorems": [
    "Verif.C147_missing",
    "Verif.C147_bodies",
    "Verif.C147_multipart",
    "Verif.C147_counts"
   ],
   "note": ""
  },
  {
   "property": "C148",
   "status": "proved",
   "theorems": [
    "Verif.C148_present",
    "Verif.C148_patterns",
    "Verif.C148_smallest"
   ],
   "note": ""
  },
  {
   "property": "C149",
   "status": "partial",
   "theorems": [
    "Verif.C149_pruned_partial",
    "Verif.C149_bodies_partial",
    "Verif.C149_multipart_partial",
    "Verif.C149_refuted"
   ],
   "note": "Refuted: C149_refuted (a rule that never matches looks at a malformed form, the next rule sees more of it). Proved: C149_pruned_partial (rules that read no body), C149_bodies_partial (bodies up to 131072 bytes, forms settled and well-formed), C149_multipart_partial (multipart forms as in C133). Missing: larger bodies, malformed forms."
  }
 ]
}