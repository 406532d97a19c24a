{
 "claims": [
  {
   "property": "C01",
   "status": "proved",
   "theorems": [
    "EmailParser.C01_email_parse_total",
    "EmailParser.C01_no_hang_no_undefined_behaviour",
    "EmailParser.C01_entity_parse_total",
    "EmailParser.C01_entity_no_hang_no_undefined_behaviour"
   ],
   "note": "also for RawEntity::parse"
  },
  {
   "property": "C02",
   "status": "proved",
   "theorems": [
    "EmailParser.C02_stack_overflow_needs_parentheses",
    "EmailParser.C02_nesting_not_limited",
    "EmailParser.C02_bound_is_exact"
   ],
   "note": "the code has no nesting limit: a defect"
  },
  {
   "property": "C03",
   "status": "proved",
   "theorems": [
    "EmailParser.C03_no_panic_without_overflow_checks",
    "EmailParser.C03_panic_needs_256_asterisks",
    "EmailParser.C03_all_segments_panic",
    "EmailParser.C03_only_all_segments_panic"
   ],
   "note": "the panic itself is a defect of the code; witness message in an example"
  },
  {
   "property": "C04",
   "status": "proved",
   "theorems": [
    "EmailParser.C04_strings_are_utf8",
    "EmailParser.C04_ascii_without_mime",
    "EmailParser.C04_entity_strings_are_utf8"
   ],
   "note": "every string reachable from the Email or Entity"
  },
  {
   "property": "C05",
   "status": "proved",
   "theorems": [
    "EmailParser.C05_without_body",
    "EmailParser.C05_with_body",
    "EmailParser.C05_email_body"
   ],
   "note": ""
  },
  {
   "property": "C06",
   "status": "proved",
   "theorems": [
    "EmailParser.C06_body_iff",
    "EmailParser.C06_accepted_body"
   ],
   "note": "on the body parser"
  },
  {
   "property": "C07",
   "status": "proved",
   "theorems": [
    "EmailParser.C07_body_lines",
    "EmailParser.C07_functions_agree"
   ],
   "note": ""
  },
  {
   "property": "C08",
   "status": "proved",
   "theorems": [
    "EmailParser.C08_body_opaque",
    "EmailParser.C08_acceptance",
    "EmailParser.C08_email"
   ],
   "note": ""
  },
  {
   "property": "C09",
   "status": "proved",
   "theorems": [
    "EmailParser.C09_errors",
    "EmailParser.C09_display"
   ],
   "note": "every error is one of the listed ones, with the condition under which it is reported"
  },
  {
   "property": "C10",
   "status": "proved",
   "theorems": [
    "EmailParser.C10_field_local",
    "EmailParser.C10_same_outcome",
    "EmailParser.C10_lines",
    "EmailParser.C10_block"
   ],
   "note": ""
  },
  {
   "property": "C11",
   "status": "proved",
   "theorems": [
    "EmailParser.C11_line",
    "EmailParser.C11_unknown",
    "EmailParser.C11_kind",
    "EmailParser.C11_block",
    "EmailParser.C11_message",
    "EmailParser.C11_folded_mime_cut"
   ],
   "note": "C11_folded_mime_cut is the witness for the exception named in the statement. A comment nested too deeply overflows the stack (C02), which the theorems list as a separate outcome."
  },
  {
   "property": "C12",
   "status": "proved",
   "theorems": [
    "EmailParser.C12_case_insensitive",
    "EmailParser.C12_trace"
   ],
   "note": ""
  },
  {
   "property": "C13",
   "status": "proved",
   "theorems": [
    "EmailParser.C13_message_conforms",
    "EmailParser.C13_fields_conform",
    "EmailParser.C13_recipients"
   ],
   "note": "soundness of all header parsers against the grammar in Spec"
  },
  {
   "property": "C14",
   "status": "proved",
   "theorems": [
    "EmailParser.C14_date_required",
    "EmailParser.C14_from_required"
   ],
   "note": ""
  },
  {
   "property": "C15",
   "status": "proved",
   "theorems": [
    "EmailParser.C15_duplicates_rejected",
    "EmailParser.C15_repeated_kind_never_accepted",
    "EmailParser.C15_success_means_unique"
   ],
   "note": ""
  },
  {
   "property": "C16",
   "status": "proved",
   "theorems": [
    "EmailParser.C16_sender_reported",
    "EmailParser.C16_sender_missing"
   ],
   "note": ""
  },
  {
   "property": "C17",
   "status": "proved",
   "theorems": [
    "EmailParser.C17_nothing_lost",
    "EmailParser.C17_email_determined"
   ],
   "note": ""
  },
  {
   "property": "C18",
   "status": "proved",
   "theorems": [
    "EmailParser.C18_order_irrelevant",
    "EmailParser.C18_any_order",
    "EmailParser.C18_lines"
   ],
   "note": "C18_order_irrelevant and C18_any_order on parsed fields, C18_lines on the text of header lines that each parse alone"
  },
  {
   "property": "C19",
   "status": "proved",
   "theorems": [
    "EmailParser.C19_error_precedence"
   ],
   "note": ""
  },
  {
   "property": "C20",
   "status": "proved",
   "theorems": [
    "EmailParser.C20_date_in_range",
    "EmailParser.C20_trace_dates_in_range",
    "EmailParser.C20_disposition_dates_in_range"
   ],
   "note": ""
  },
  {
   "property": "C21",
   "status": "proved",
   "theorems": [
    "EmailParser.C21_date_round_trip",
    "EmailParser.C21_grammar_accepted",
    "EmailParser.C21_unambiguous"
   ],
   "note": "C21_grammar_accepted covers every date of the grammar, with folding and comments"
  },
  {
   "property": "C22",
   "status": "proved",
   "theorems": [
    "EmailParser.C22_year_iff"
   ],
   "note": ""
  },
  {
   "property": "C23",
   "status": "proved",
   "theorems": [
    "EmailParser.C23_quoted_string"
   ],
   "note": ""
  },
  {
   "property": "C24",
   "status": "proved",
   "theorems": [
    "EmailParser.C24_any_layout",
    "EmailParser.C24_mailbox",
    "EmailParser.C24_injective"
   ],
   "note": "Any printable local part and name words; the general layout allows comments and folding anywhere and encoded words."
  },
  {
   "property": "C25",
   "status": "proved",
   "theorems": [
    "EmailParser.C25_any_layout",
    "EmailParser.C25_addresses",
    "EmailParser.C25_mailboxes",
    "EmailParser.C25_group"
   ],
   "note": ""
  },
  {
   "property": "C26",
   "status": "proved",
   "theorems": [
    "EmailParser.C26_message_id",
    "EmailParser.C26_message_ids"
   ],
   "note": ""
  },
  {
   "property": "C27",
   "status": "proved",
   "theorems": [
    "EmailParser.C27_atom",
    "EmailParser.C27_dot_atom",
    "EmailParser.C27_quoted_string",
    "EmailParser.C27_word"
   ],
   "note": ""
  },
  {
   "property": "C28",
   "status": "proved",
   "theorems": [
    "EmailParser.C28_unfolding",
    "EmailParser.C28_unfolding_mime",
    "EmailParser.C28_plain_text",
    "EmailParser.C28_value"
   ],
   "note": ""
  },
  {
   "property": "C29",
   "status": "proved",
   "theorems": [
    "EmailParser.C29_unrecognised",
    "EmailParser.C29_trace"
   ],
   "note": ""
  },
  {
   "property": "C30",
   "status": "proved",
   "theorems": [
    "EmailParser.C30_base64_round_trip",
    "EmailParser.C30_base64_round_trip_noise"
   ],
   "note": "all byte strings; interspersed foreign bytes"
  },
  {
   "property": "C31",
   "status": "proved",
   "theorems": [
    "EmailParser.C31_base64_decoder_refines_spec",
    "EmailParser.C31_base64_decoded_length"
   ],
   "note": "in-place decoder equals the streaming specification, errors included"
  },
  {
   "property": "C32",
   "status": "proved",
   "theorems": [
    "EmailParser.C32_base64_encoder_shape",
    "EmailParser.C32_base64_encoder_refines_spec"
   ],
   "note": ""
  },
  {
   "property": "C33",
   "status": "proved",
   "theorems": [
    "EmailParser.C33_qp_round_trip"
   ],
   "note": "all byte strings"
  },
  {
   "property": "C34",
   "status": "proved",
   "theorems": [
    "EmailParser.C34_qp_decoder_refines_spec",
    "EmailParser.C34_header_qp_decoder_refines_spec"
   ],
   "note": ""
  },
  {
   "property": "C35",
   "status": "proved",
   "theorems": [
    "EmailParser.C35_qp_encoder_shape"
   ],
   "note": ""
  },
  {
   "property": "C36",
   "status": "proved",
   "theorems": [
    "EmailParser.C36_q_round_trip"
   ],
   "note": ""
  },
  {
   "property": "C37",
   "status": "proved",
   "theorems": [
    "EmailParser.C37_percent_decoding",
    "EmailParser.C37_percent_round_trip",
    "EmailParser.C37_percent_invalid",
    "EmailParser.C37_right_to_left",
    "EmailParser.C37_decodes_twice"
   ],
   "note": ""
  },
  {
   "property": "C38",
   "status": "proved",
   "theorems": [
    "EmailParser.C38_collect_iff",
    "EmailParser.C38_without_first",
    "EmailParser.C38_stops_at_gap",
    "EmailParser.C38_any_order"
   ],
   "note": ""
  },
  {
   "property": "C39",
   "status": "proved",
   "theorems": [
    "EmailParser.C39_email_order_irrelevant",
    "EmailParser.C39_entity_order_irrelevant",
    "EmailParser.C39_order_can_matter"
   ],
   "note": "with the exception in the statement, for which a witness is given"
  },
  {
   "property": "C40",
   "status": "proved",
   "theorems": [
    "EmailParser.C40_split_join",
    "EmailParser.C40_parse_join"
   ],
   "note": ""
  },
  {
   "property": "C41",
   "status": "proved",
   "theorems": [
    "EmailParser.C41_parts_cover_body",
    "EmailParser.C41_rejected_iff"
   ],
   "note": ""
  },
  {
   "property": "C42",
   "status": "proved",
   "theorems": [
    "EmailParser.C42_identity",
    "EmailParser.C42_base64",
    "EmailParser.C42_quoted_printable",
    "EmailParser.C42_unknown",
    "EmailParser.C43_no_headers"
   ],
   "note": "parts with a Content-Transfer-Encoding header in any spelling, and parts without headers"
  },
  {
   "property": "C43",
   "status": "proved",
   "theorems": [
    "EmailParser.C43_no_headers",
    "EmailParser.C43_empty",
    "EmailParser.C43_last_counts"
   ],
   "note": ""
  },
  {
   "property": "C44",
   "status": "proved",
   "theorems": [
    "EmailParser.C44_utf8_text",
    "EmailParser.C44_other_text",
    "EmailParser.C44_unknown_text",
    "EmailParser.C44_other_types",
    "EmailParser.C44_composite"
   ],
   "note": ""
  },
  {
   "property": "C45",
   "status": "proved",
   "theorems": [
    "EmailParser.C45_pieces",
    "EmailParser.C45_pieces_exist",
    "EmailParser.C45_between_encoded",
    "EmailParser.C45_encoded_plain",
    "EmailParser.C45_plain_encoded"
   ],
   "note": ""
  },
  {
   "property": "C46",
   "status": "proved",
   "theorems": [
    "EmailParser.C46_round_trip",
    "EmailParser.C46_any_layout",
    "EmailParser.C46_long_text"
   ],
   "note": "A type name that begins with a keyword (textual) is read as that keyword; the statement is about the other names."
  },
  {
   "property": "C47",
   "status": "proved",
   "theorems": [
    "EmailParser.C47_trace_iff",
    "EmailParser.C47_traces_first",
    "EmailParser.C47_block",
    "EmailParser.C47_elsewhere",
    "EmailParser.C47_layout"
   ],
   "note": ""
  },
  {
   "property": "C48",
   "status": "proved",
   "theorems": [
    "EmailParser.C48_number_iff",
    "EmailParser.C48_header_iff"
   ],
   "note": ""
  },
  {
   "property": "C49",
   "status": "proved",
   "theorems": [
    "EmailParser.C49_content",
    "EmailParser.C49_add_str",
    "EmailParser.C49_in_bounds",
    "EmailParser.C49_no_copy",
    "EmailParser.C49_copied_iff"
   ],
   "note": ""
  },
  {
   "property": "C50",
   "status": "proved",
   "theorems": [
    "EmailParser.C50_content",
    "EmailParser.C50_disposition",
    "EmailParser.C50_headers",
    "EmailParser.C50_owned"
   ],
   "note": ""
  },
  {
   "property": "C51",
   "status": "proved",
   "theorems": [
    "EmailParser.C51_round_trip",
    "EmailParser.C51_any_layout",
    "EmailParser.C51_headers"
   ],
   "note": "Texts are written on one line; canonical texts with encoded words are left out when they would be decoded. What may be written is in Spec/PrintMessage.lean."
  },
  {
   "property": "C52",
   "status": "proved",
   "theorems": [
    "EmailParser.C52_decodes",
    "EmailParser.C52_invalid_kept"
   ],
   "note": ""
  },
  {
   "property": "C53",
   "status": "proved",
   "theorems": [
    "EmailParser.C53_round_trip",
    "EmailParser.C53_any_layout"
   ],
   "note": ""
  },
  {
   "property": "C54",
   "status": "proved",
   "theorems": [
    "EmailParser.C54_any_layout",
    "EmailParser.C54_round_trip"
   ],
   "note": ""
  },
  {
   "property": "C55",
   "status": "proved",
   "theorems": [
    "EmailParser.C55_tree",
    "EmailParser.C55_message",
    "EmailParser.C55_boundary_exists"
   ],
   "note": ""
  },
  {
   "property": "C56",
   "status": "proved",
   "theorems": [
    "EmailParser.C56_parts",
    "EmailParser.C56_well_founded",
    "EmailParser.C56_census",
    "EmailParser.C56_census_unique",
    "EmailParser.C56_message"
   ],
   "note": ""
  },
  {
   "property": "C57",
   "status": "proved",
   "theorems": [
    "EmailParser.C57_bound",
    "EmailParser.C57_growth",
    "EmailParser.C57_message"
   ],
   "note": "C57_growth and C57_message show that the bound is reached: data can grow exponentially in the number of levels."
  },
  {
   "property": "C58",
   "status": "proved",
   "theorems": [
    "EmailParser.C58_contents",
    "EmailParser.C58_inside",
    "EmailParser.C58_atoms",
    "EmailParser.C58_message_id",
    "EmailParser.C58_quoted",
    "EmailParser.C58_text",
    "EmailParser.C58_domain"
   ],
   "note": ""
  },
  {
   "property": "C59",
   "status": "proved",
   "theorems": [
    "EmailParser.C59_normal_form",
    "EmailParser.C59_same_text",
    "EmailParser.C59_idempotent",
    "EmailParser.C59_condition_needed"
   ],
   "note": "For messages without MIME; with encoded words the strings of an e-mail need not be writable without encoding them."
  },
  {
   "property": "C60",
   "status": "proved",
   "theorems": [
    "EmailParser.C60_same_outcome",
    "EmailParser.C60_quadratic",
    "EmailParser.C60_field"
   ],
   "note": "Steps as defined in Model/Timed.lean; the decoders of encoded words, parameters and bodies and the copying of bytes are not counted."
  },
  {
   "property": "C61",
   "status": "proved",
   "theorems": [
    "EmailParser.C61_message",
    "EmailParser.C61_parts",
    "EmailParser.C61_field"
   ],
   "note": ""
  },
  {
   "property": "C62",
   "status": "proved",
   "theorems": [
    "EmailParser.C62_linear",
    "EmailParser.C62_field",
    "EmailParser.C62_values"
   ],
   "note": "Steps as for C60."
  },
  {
   "property": "C63",
   "status": "proved",
   "theorems": [
    "EmailParser.C63_same_outcome",
    "EmailParser.C63_base64_linear",
    "EmailParser.C63_quadratic",
    "EmailParser.C63_quadratic_reached",
    "EmailParser.C63_not_linear"
   ],
   "note": "Steps as defined in Model/TimedCodecs.lean; growing the allocation and the charset conversion are not counted."
  },
  {
   "property": "C64",
   "status": "proved",
   "theorems": [
    "EmailParser.C64_quadratic_reached",
    "EmailParser.C64_not_linear",
    "EmailParser.C64_field"
   ],
   "note": "Steps as for C60. The comments nest, so that n is limited by the stack."
  },
  {
   "property": "C65",
   "status": "proved",
   "theorems": [
    "EmailParser.C65_same_outcome",
    "EmailParser.C65_part",
    "EmailParser.C65_quadratic",
    "EmailParser.C65_quadratic_reached"
   ],
   "note": "Steps as for C60 and C63, and the comparisons with the delimiters. The conversion from charsets is not counted."
  },
  {
   "property": "C66",
   "status": "proved",
   "theorems": [
    "EmailParser.C66_round_trip",
    "EmailParser.C66_exactly_utf8"
   ],
   "note": "What may be written is in Spec/Unicode.lean. The value of filename cannot be encoded so that it reaches the member filename."
  },
  {
   "property": "C67",
   "status": "proved",
   "theorems": [
    "EmailParser.C67_normal_form",
    "EmailParser.C67_listed",
    "EmailParser.C67_image",
    "EmailParser.C67_same_text"
   ],
   "note": "The parameters of a header are a map without order: the canonical text is for a given list of their names, and C67_listed shows that there is one. That the condition on unknown fields is needed is C59_condition_needed."
  },
  {
   "property": "C68",
   "status": "proved",
   "theorems": [
    "EmailParser.C68_round_trip",
    "EmailParser.C68_listed",
    "EmailParser.C68_normal_form",
    "EmailParser.C68_image",
    "EmailParser.C68_message",
    "EmailParser.C68_recombine"
   ],
   "note": "As for C67, the parameters are written for a given list of their names."
  },
  {
   "property": "C69",
   "status": "proved",
   "theorems": [
    "EmailParser.C69_defined",
    "EmailParser.C69_levels",
    "EmailParser.C69_cubic",
    "EmailParser.C69_bound",
    "EmailParser.C69_longer",
    "EmailParser.C69_calm",
    "EmailParser.C69_paid",
    "EmailParser.C69_exponential"
   ],
   "note": "The steps are those of the counting copies of the functions (see C60, C63, C65). That no multipart part becomes longer is the hypothesis Grows 1 of C69_levels and C69_cubic; C69_calm and C69_longer say when it holds."
  },
  {
   "property": "C70",
   "status": "proved",
   "theorems": [
    "EmailParser.C70_same",
    "EmailParser.C70_fewer",
    "EmailParser.C70_folded_name"
   ],
   "note": "C70_folded_name is the witness that C70_fewer needs the condition on the lines."
  },
  {
   "property": "C71",
   "status": "proved",
   "theorems": [
    "EmailParser.C71_contents",
    "EmailParser.C71_inside",
    "EmailParser.C71_copied",
    "EmailParser.C71_body"
   ],
   "note": "The parameters of a header are a list of entries in some order (the order of the hash map); the contents agree for every order. That each reason to copy occurs is shown by the examples after the theorems."
  },
  {
   "property": "C72",
   "status": "proved",
   "theorems": [
    "EmailParser.C72_contents",
    "EmailParser.C72_strings",
    "EmailParser.C72_owned",
    "EmailParser.C72_parse_contents",
    "EmailParser.C72_parts",
    "EmailParser.C72_text"
   ],
   "note": "RawEntity::parse takes the place of the bytes of the value: in the input if the value is borrowed, in the entity otherwise."
  },
  {
   "property": "C73",
   "status": "proved",
   "theorems": [
    "EmailParser.C73_email",
    "EmailParser.C73_copied",
    "EmailParser.C73_entity",
    "EmailParser.C73_parse",
    "EmailParser.C73_growth"
   ],
   "note": "The bytes of the strings and one for each string are counted, not spare capacity of vectors, hash tables or intermediate values. The bound k on the charset conversions is a hypothesis, as these are in other crates."
  },
  {
   "property": "C74",
   "status": "proved",
   "theorems": [
    "EmailParser.C74_read",
    "EmailParser.C74_iff",
    "EmailParser.C74_otherwise",
    "EmailParser.C74_denotes",
    "EmailParser.C74_unambiguous",
    "EmailParser.C74_message",
    "EmailParser.C74_accepted"
   ],
   "note": "Hypothesis Plain: comments no deeper than the stack, and with the feature mime no encoded words and none of the headers with parameters (these have their own claims, C46-C48 and C52). Header lines are those of RFC 5322 2.2 (HeaderText), in which no line consists of white space only."
  },
  {
   "property": "C75",
   "status": "proved",
   "theorems": [
    "EmailParser.C75_classes",
    "EmailParser.C75_partition",
    "EmailParser.C75_digits",
    "EmailParser.C75_twoDigits"
   ],
   "note": "The especials contain the backslash, which the code excludes in addition to RFC 2047 (Spec/Chars.lean). C75_classes and C75_partition are checked by the kernel for all 256 bytes."
  },
  {
   "property": "C76",
   "status": "proved",
   "theorems": [
    "EmailParser.C76_mime",
    "EmailParser.C76_unambiguous",
    "EmailParser.C76_otherwise",
    "EmailParser.C76_text_unique",
    "EmailParser.C76_text",
    "EmailParser.C76_unknown",
    "EmailParser.C76_denotes",
    "EmailParser.C76_message",
    "EmailParser.C76_accepted"
   ],
   "note": "Hypothesis Fits: comments no deeper than the stack and, if overflow checks are on, fewer than 256 asterisks. Content-Disposition is not included: its grammar has several readings (dates may also be read as parameters); see C48 and C52. A MIME line of which only a beginning is in the grammar denotes nothing in C76_message."
  },
  {
   "property": "C77",
   "status": "proved",
   "theorems": [
    "EmailParser.C77_received",
    "EmailParser.C77_unambiguous",
    "EmailParser.C77_token",
    "EmailParser.C77_returnPath",
    "EmailParser.C77_resent",
    "EmailParser.C77_division",
    "EmailParser.C77_traces",
    "EmailParser.C77_message",
    "EmailParser.C77_accepted"
   ],
   "note": "Hypotheses Fits and FitsTrace: comments no deeper than the stack, with overflow checks fewer than 256 asterisks, and with the feature mime no encoded words in Resent-* lines. TokensDate is the grammar of RFC 5322 3.6.7 without addr-spec; the example after the theorems shows a line that RFC 5322 allows and that is therefore not read."
  },
  {
   "property": "C78",
   "status": "proved",
   "theorems": [
    "EmailParser.C78_disposition",
    "EmailParser.C78_unique",
    "EmailParser.C78_grammar",
    "EmailParser.C78_otherwise",
    "EmailParser.C78_denotes",
    "EmailParser.C78_message",
    "EmailParser.C78_accepted",
    "EmailParser.C78_part_header",
    "EmailParser.C78_unfolded",
    "EmailParser.C78_part"
   ],
   "note": "Hypothesis Fits: comments no deeper than the stack, and with overflow checks fewer than 256 asterisks. A Content-ID line is taken without the mark of encoded words, as in C74. A beginning of a folded line that is itself in the grammar is excluded where what is read from a line is said to be its meaning; C78_otherwise and C76_otherwise say what is read then."
  },
  {
   "property": "C79",
   "status": "proved",
   "theorems": [
    "EmailParser.C79_line",
    "EmailParser.C79_unique",
    "EmailParser.C79_grammar",
    "EmailParser.C79_otherwise",
    "EmailParser.C79_reads",
    "EmailParser.C79_functional",
    "EmailParser.C79_denotes",
    "EmailParser.C79_total",
    "EmailParser.C79_fields",
    "EmailParser.C79_message",
    "EmailParser.C79_accepted"
   ],
   "note": "Hypothesis Fits: comments no deeper than the stack, and with overflow checks fewer than 256 asterisks. C79_denotes excludes a folded line of one of five MIME headers of which a beginning has a meaning but not the whole; C79_otherwise says what is read then. The message theorems exclude trace headers, for which see C77."
  },
  {
   "property": "C80",
   "status": "proved",
   "theorems": [
    "EmailParser.C80_cut",
    "EmailParser.C80_line",
    "EmailParser.C80_total",
    "EmailParser.C80_reads",
    "EmailParser.C80_functional",
    "EmailParser.C80_message",
    "EmailParser.C80_rejected",
    "EmailParser.C80_accepted"
   ],
   "note": "Hypothesis Fits as in C79, for lines that are not read as plain text. The lines are those of RFC 5322 2.2 (HeaderText), in which no line consists of white space. Trace headers first are excluded (NoTraceName); C77 is about these."
  },
  {
   "property": "C81",
   "status": "proved",
   "theorems": [
    "EmailParser.C81_resent",
    "EmailParser.C81_resent_unique",
    "EmailParser.C81_parted",
    "EmailParser.C81_functional",
    "EmailParser.C81_fields",
    "EmailParser.C81_message",
    "EmailParser.C81_rejected",
    "EmailParser.C81_accepted"
   ],
   "note": "The limits (Fits): comments no deeper than the stack, and with overflow checks fewer than 256 asterisks; not needed for lines that are read as plain text. The lines are those of RFC 5322 2.2 (HeaderText), in which no line consists of white space. What a line means is MeansLine of C80."
  },
  {
   "property": "C82",
   "status": "proved",
   "theorems": [
    "EmailParser.C82_reads",
    "EmailParser.C82_functional",
    "EmailParser.C82_total",
    "EmailParser.C82_rejected",
    "EmailParser.C82_part",
    "EmailParser.C82_multipart"
   ],
   "note": "The limits (Fits) as in C81; not needed for Content-Description and for headers without meaning in parts. The lines are those of RFC 5322 2.2 (HeaderText), in which no line consists of white space. How a body is divided into parts is MultipartText of C41."
  },
  {
   "property": "C83",
   "status": "proved",
   "theorems": [
    "EmailParser.C83_split",
    "EmailParser.C83_lines",
    "EmailParser.C83_accepted_lines",
    "EmailParser.C83_parse",
    "EmailParser.C83_accepted"
   ],
   "note": "The limits (Fits) are those of C81, here for the whole text before the first empty line; what follows it may be anything. Header blocks with a line of white space only are not covered: some structured headers accept one (see the last example). What a line means is MeansLine of C80, how trace blocks are divided Parted of C81."
  },
  {
   "property": "C84",
   "status": "proved",
   "theorems": [
    "EmailParser.C84_read_lines",
    "EmailParser.C84_part",
    "EmailParser.C84_parts",
    "EmailParser.C84_multipart"
   ],
   "note": "The limits (Fits) are for the text before the first empty line of each part; what follows may be anything. Header blocks with a line of white space only are not covered (see the last example). What a line means is MeansPart of C82, how a body is divided into parts MultipartText of C41."
  },
  {
   "property": "C85",
   "status": "proved",
   "theorems": [
    "EmailParser.C85_email",
    "EmailParser.C85_part",
    "EmailParser.C85_entity",
    "EmailParser.C85_without_mime",
    "EmailParser.C85_subjects",
    "EmailParser.C85_injection"
   ],
   "note": "C85_injection is the witness that decoded texts are not safe to be put in a header again (recorded in DESIGN section 5); the values of parameters, display names, comments, keywords, descriptions and values of unknown fields are likewise decoded and are left out of the guarded strings. C85_entity assumes of the entity what C85_email and C85_part prove of every entity that is returned."
  },
  {
   "property": "C86",
   "status": "proved",
   "theorems": [
    "EmailParser.C86_headers",
    "EmailParser.C86_where",
    "EmailParser.C86_part_where",
    "EmailParser.C86_parse",
    "EmailParser.C86_part",
    "EmailParser.C86_multipart",
    "EmailParser.C86_refused",
    "EmailParser.C86_part_refused",
    "EmailParser.C86_sharp",
    "EmailParser.C86_part_sharp"
   ],
   "note": "C86_parse contains C83_parse, C86_part and C86_multipart contain C84. What is not determined in this exact sense: header blocks in which white lines are isolated and only in the headers that allow comments (SomeWhite); for these C05 and C86_where say what is accepted. C86_sharp is for the full feature set."
  },
  {
   "property": "C87",
   "status": "proved",
   "theorems": [
    "EmailParser.C87_result",
    "EmailParser.C87_entity_result",
    "EmailParser.C87_email",
    "EmailParser.C87_part",
    "EmailParser.C87_entity",
    "EmailParser.C87_email_more",
    "EmailParser.C87_part_more",
    "EmailParser.C87_entity_more",
    "EmailParser.C87_parse",
    "EmailParser.C87_part_parse",
    "EmailParser.C87_multipart",
    "EmailParser.C87_stack_matters",
    "EmailParser.C87_checks_matter"
   ],
   "note": "An abort is a stack overflow or a panic (C01). C87_email removes the condition on asterisks of C39. The libraries textcode and str::to_lowercase are taken to be the same functions in both builds. C87_multipart assumes of the parts that n is not less than their numbers of opening parentheses."
  },
  {
   "property": "C88",
   "status": "proved",
   "theorems": [
    "EmailParser.C88_unfinished_line",
    "EmailParser.C88_cut_header",
    "EmailParser.C88_other_body",
    "EmailParser.C88_no_body",
    "EmailParser.C88_body_beginning",
    "EmailParser.C88_cut_body",
    "EmailParser.C88_cut_mime",
    "EmailParser.C88_cut_base64",
    "EmailParser.C88_cut_multipart",
    "EmailParser.C88_unnoticed"
   ],
   "note": "What is returned for a message cut at the end of a line of its header block is determined by C87_parse, since the beginning is itself a text of lines. C88_unnoticed is a witness for the default features."
  },
  {
   "property": "C89",
   "status": "proved",
   "theorems": [
    "EmailParser.C89_refused",
    "EmailParser.C89_part_refused",
    "EmailParser.C89_foreign",
    "EmailParser.C89_stray_line",
    "EmailParser.C89_part",
    "EmailParser.C89_no_crlf",
    "EmailParser.C89_any_text",
    "EmailParser.C89_any_length"
   ],
   "note": "That lines of headers are not limited in length is recorded in DESIGN section 5. After the empty line other bytes are a matter of the body (C06, C08)."
  },
  {
   "property": "C90",
   "status": "proved",
   "theorems": [
    "EmailParser.C90_received",
    "EmailParser.C90_return_path",
    "EmailParser.C90_hidden"
   ],
   "note": "That a header such as Delivered-To above the trace hides it is recorded in DESIGN section 5. A Received line above resent headers makes these part of its block (example beside the theorem)."
  },
  {
   "property": "C91",
   "status": "proved",
   "theorems": [
    "EmailParser.C91_added",
    "EmailParser.C91_removed",
    "EmailParser.C91_part"
   ],
   "note": "Inside a trace such lines are not inert: they end it (C90_hidden, example beside the theorem)."
  },
  {
   "property": "C92",
   "status": "proved",
   "theorems": [
    "EmailParser.C92_replaced",
    "EmailParser.C92_removed",
    "EmailParser.C92_swapped",
    "EmailParser.C92_part"
   ],
   "note": "For lines without a meaning of their own see C91, for trace lines C90."
  },
  {
   "property": "C93",
   "status": "proved",
   "theorems": [
    "EmailParser.C93_message",
    "EmailParser.C93_date",
    "EmailParser.C93_lines",
    "EmailParser.C93_mime_counterexample"
   ],
   "note": "C93_mime_counterexample shows that the hypothesis on the mime feature is needed."
  },
  {
   "property": "C94",
   "status": "proved",
   "theorems": [
    "EmailParser.C94_line",
    "EmailParser.C94_message",
    "EmailParser.C94_same",
    "EmailParser.C94_identifiers",
    "EmailParser.C94_trace_lines",
    "EmailParser.C94_mime_counterexample"
   ],
   "note": "C94_mime_counterexample shows that the hypothesis on the mime feature is needed for lines with phrases."
  },
  {
   "property": "C95",
   "status": "proved",
   "theorems": [
    "EmailParser.C95_alone",
    "EmailParser.C95_line",
    "EmailParser.C95_message"
   ],
   "note": "A message that is not read at all may be refused with another error when a trace was tried; the claim is about the e-mails. Whether a dangling dot is needed on every such line is not claimed (a dot in a comment or quoted string is also required to be followed)."
  },
  {
   "property": "C96",
   "status": "proved",
   "theorems": [
    "EmailParser.C96_join",
    "EmailParser.C96_apart",
    "EmailParser.C96_identifiers",
    "EmailParser.C96_identifiers_apart",
    "EmailParser.C96_encoded"
   ],
   "note": "C96_encoded is the counterexample without the condition on =?. An empty Bcc list has no place in a longer list."
  },
  {
   "property": "C97",
   "status": "proved",
   "theorems": [
    "EmailParser.C97_edited",
    "EmailParser.C97_added",
    "EmailParser.C97_referenced",
    "EmailParser.C97_part"
   ],
   "note": "Examples beside the theorems show why the two exceptions (encoding, several authors without a sender) are needed."
  }
 ]
}
