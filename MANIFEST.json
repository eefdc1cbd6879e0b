{
 "claims": [
  {
   "property": "C01",
   "status": "proved",
   "theorems": [
    "Gobufr.C01_uint_roundtrip",
    "Gobufr.C01_number"
   ],
   "note": ""
  },
  {
   "property": "C02",
   "status": "proved",
   "theorems": [
    "Gobufr.C02_int_roundtrip",
    "Gobufr.C02_int_overflow_aliases",
    "Gobufr.C02_misfit"
   ],
   "note": ""
  },
  {
   "property": "C03",
   "status": "proved",
   "theorems": [
    "Gobufr.C03_record_roundtrip"
   ],
   "note": ""
  },
  {
   "property": "C04",
   "status": "proved",
   "theorems": [
    "Gobufr.C04_bytes_pad_truncate"
   ],
   "note": ""
  },
  {
   "property": "C05",
   "status": "proved",
   "theorems": [
    "Gobufr.C05_binary_roundtrip",
    "Gobufr.C05_binary_read_write",
    "Gobufr.C05_width_mismatch"
   ],
   "note": ""
  },
  {
   "property": "C06",
   "status": "partial",
   "theorems": [
    "Gobufr.C06_pos_accounting_partial",
    "Gobufr.C06_readInt0_violates",
    "Gobufr.C06_readBinary_violates",
    "Gobufr.C06_violates"
   ],
   "note": "ReadInt(0) and a truncated ReadBinary break the accounting (C06_readInt0_violates, C06_readBinary_violates); the partial theorem covers every other call."
  },
  {
   "property": "C07",
   "status": "partial",
   "theorems": [
    "Gobufr.C07_truncation_partial",
    "Gobufr.C07_readBinary_violates",
    "Gobufr.C07_violates"
   ],
   "note": "ReadBinary hides truncation (C07_readBinary_violates); the partial theorem covers the other reads."
  },
  {
   "property": "C08",
   "status": "partial",
   "theorems": [
    "Gobufr.C08_prefix_partial",
    "Gobufr.C08_violates"
   ],
   "note": "The code violates it for ReadBinary at the end of the input, which returns nil without an error (C08_violates). Proved for every read that returns a genuine value, ReadInt(0) included (C08_prefix_partial)."
  },
  {
   "property": "C09",
   "status": "partial",
   "theorems": [
    "Gobufr.C09_peek_no_effect",
    "Gobufr.C09_peek_unaligned",
    "Gobufr.C09_peekUint_partial",
    "Gobufr.C09_peekBytes_partial",
    "Gobufr.C09_boundary",
    "Gobufr.C09_limit",
    "Gobufr.C09_violates"
   ],
   "note": "The code violates it for peeks that reach beyond 4096 bytes, the size of the buffer: they are refused although reading works (C09_limit, C09_violates). Proved for all others (C09_peekUint_partial, C09_peekBytes_partial); that a position divisible by 8 is the beginning of a byte after genuine reads is C09_boundary."
  },
  {
   "property": "C10",
   "status": "proved",
   "theorems": [
    "Gobufr.C10_accessors_fromString",
    "Gobufr.C10_accessors_read"
   ],
   "note": ""
  },
  {
   "property": "C11",
   "status": "proved",
   "theorems": [
    "Gobufr.C11_text_roundtrip",
    "Gobufr.C11_json_roundtrip",
    "Gobufr.C11_unmarshal_ignores_errors"
   ],
   "note": "C11_unmarshal_ignores_errors additionally shows that UnmarshalJSON accepts non-string JSON silently."
  },
  {
   "property": "C12",
   "status": "proved",
   "theorems": [
    "Gobufr.C12_newBinary_validates"
   ],
   "note": ""
  },
  {
   "property": "C13",
   "status": "partial",
   "theorems": [
    "Gobufr.C13_newBinaryFromUint_diverges",
    "Gobufr.C13_violates",
    "Gobufr.C13_byte_partial"
   ],
   "note": "Violated for every argument: the call never returns (C13_newBinaryFromUint_diverges, C13_violates). C13_byte_partial says what one loop round extracts."
  },
  {
   "property": "C14",
   "status": "proved",
   "theorems": [
    "Gobufr.C14_flat_reads",
    "Gobufr.C14_nesting_irrelevant"
   ],
   "note": ""
  },
  {
   "property": "C15",
   "status": "partial",
   "theorems": [
    "Gobufr.C15_peeks_harmless_partial",
    "Gobufr.C15_history_partial",
    "Gobufr.C15_look_back_violates",
    "Gobufr.C15_violates",
    "Gobufr.C15_look_back_general",
    "Gobufr.C15_null_dropped"
   ],
   "note": "Look-ahead past a cached token and cached nulls break the claim (C15_look_back_violates, C15_null_dropped)."
  },
  {
   "property": "C16",
   "status": "proved",
   "theorems": [
    "Gobufr.C16_typed_reads",
    "Gobufr.C16_end"
   ],
   "note": ""
  },
  {
   "property": "C17",
   "status": "partial",
   "theorems": [
    "Gobufr.C17_readFloat32_diverges",
    "Gobufr.C17_readFloat32_cached_partial",
    "Gobufr.C17_violates",
    "Gobufr.C17_fuel_enough"
   ],
   "note": "ReadFloat32 of the peekable JSON reader recurses for ever (C17_readFloat32_diverges); cached tokens are read (partial)."
  },
  {
   "property": "C18",
   "status": "proved",
   "theorems": [
    "Gobufr.C18_missing_iff",
    "Gobufr.C18_one_bit",
    "Gobufr.C18_non_uint",
    "Gobufr.C18_missingValue",
    "Gobufr.C18_wide_zero"
   ],
   "note": ""
  },
  {
   "property": "C19",
   "status": "proved",
   "theorems": [
    "Gobufr.C19_fxy",
    "Gobufr.C19_fxy_determine",
    "Gobufr.C19_fxy_inj"
   ],
   "note": ""
  },
  {
   "property": "C20",
   "status": "proved",
   "theorems": [
    "Gobufr.C20_first_match",
    "Gobufr.C20_fails_iff",
    "Gobufr.C20_local_shadows",
    "Gobufr.C20_reset",
    "Gobufr.C20_reset_add"
   ],
   "note": ""
  },
  {
   "property": "C21",
   "status": "proved",
   "theorems": [
    "Gobufr.C21_total",
    "Gobufr.C21_routes",
    "Gobufr.C21_lookup_id",
    "Gobufr.C21_chain_lookup_id"
   ],
   "note": ""
  },
  {
   "property": "C22",
   "status": "proved",
   "theorems": [
    "Gobufr.Mgr.C22_one_object",
    "Gobufr.Mgr.C22_loaded_once",
    "Gobufr.Mgr.C22_answers_are_loads"
   ],
   "note": ""
  },
  {
   "property": "C23",
   "status": "proved",
   "theorems": [
    "Gobufr.Mgr.C23_no_race",
    "Gobufr.Mgr.C23_mutual_exclusion",
    "Gobufr.Mgr.C23_no_deadlock",
    "Gobufr.Mgr.C23_no_livelock",
    "Gobufr.Mgr.C23_bounded"
   ],
   "note": ""
  },
  {
   "property": "C24",
   "status": "proved",
   "theorems": [
    "Gobufr.Mgr.C24_failed_load",
    "Gobufr.Mgr.C24_only_loaded_cached",
    "Gobufr.Mgr.C24_loads_again",
    "Gobufr.Mgr.C24_requests_answered",
    "Gobufr.Mgr.C24_errors_are_failed_loads"
   ],
   "note": ""
  },
  {
   "property": "C25",
   "status": "partial",
   "theorems": [
    "Gobufr.C25_fallback_partial",
    "Gobufr.C25_violates"
   ],
   "note": "Local tables fall back as stated; WMO tables do not (C25_violates)."
  },
  {
   "property": "C26",
   "status": "proved",
   "theorems": [
    "Gobufr.C26_bentry",
    "Gobufr.C26_bentry_total",
    "Gobufr.C26_wrong_type",
    "Gobufr.C26_wrong_type_d",
    "Gobufr.C26_short_record_panics",
    "Gobufr.C26_dentry",
    "Gobufr.C26_number",
    "Gobufr.C26_id_text",
    "Gobufr.C26_load_all_or_nothing",
    "Gobufr.C26_load_content",
    "Gobufr.C26_load_order",
    "Gobufr.C26_table_b",
    "Gobufr.C26_table_d",
    "Gobufr.C26_path",
    "Gobufr.C26_ambiguous_keys"
   ],
   "note": "A wrongly typed field is an error for records of any length (C26_wrong_type, C26_wrong_type_d). A record that is merely too short panics (C26_short_record_panics). C26_number: which texts are read as which numbers."
  },
  {
   "property": "C27",
   "status": "proved",
   "theorems": [
    "Gobufr.C27_units"
   ],
   "note": ""
  },
  {
   "property": "C28",
   "status": "proved",
   "theorems": [
    "Gobufr.C28_expand_iff",
    "Gobufr.C28_faithful",
    "Gobufr.C28_failure",
    "Gobufr.C28_complete"
   ],
   "note": ""
  },
  {
   "property": "C29",
   "status": "proved",
   "theorems": [
    "Gobufr.C29_bracketed",
    "Gobufr.C29_events_determine",
    "Gobufr.C29_expanded_sane"
   ],
   "note": ""
  },
  {
   "property": "C30",
   "status": "proved",
   "theorems": [
    "Gobufr.C30_walk_iff",
    "Gobufr.C30_only_waits",
    "Gobufr.C30_block_count"
   ],
   "note": ""
  },
  {
   "property": "C31",
   "status": "proved",
   "theorems": [
    "Gobufr.C31_dump"
   ],
   "note": ""
  },
  {
   "property": "C32",
   "status": "proved",
   "theorems": [
    "Gobufr.C32_parse_terminates",
    "Gobufr.C32_parse_diverges",
    "Gobufr.C32_expand_terminates",
    "Gobufr.C32_expand_diverges"
   ],
   "note": ""
  },
  {
   "property": "C33",
   "status": "partial",
   "theorems": [
    "Gobufr.C33_scope_violates",
    "Gobufr.C33_end_partial"
   ],
   "note": "Bracket scopes of nested sequences are violated (C33_scope_violates); the end of the walk is as stated (C33_end_partial)."
  },
  {
   "property": "C34",
   "status": "partial",
   "theorems": [
    "Gobufr.C34_parse_iff",
    "Gobufr.C34_root",
    "Gobufr.C34_violates",
    "Gobufr.C34_only_zeros",
    "Gobufr.C34_faithful_partial",
    "Gobufr.C34_tables_partial"
   ],
   "note": "Violated by templates that end inside a scope: the tree then spells extra zero descriptors (C34_violates). C34_only_zeros: nothing else is ever added or lost; C34_faithful_partial: exact for trees without padded scopes. C34_parse_iff characterises parsing by a grammar."
  },
  {
   "property": "C35",
   "status": "proved",
   "theorems": [
    "Gobufr.C35_function",
    "Gobufr.C35_unique"
   ],
   "note": ""
  },
  {
   "property": "C36",
   "status": "partial",
   "theorems": [
    "Gobufr.C36_violates",
    "Gobufr.C36_rejected",
    "Gobufr.C36_no_panic",
    "Gobufr.C36_error_partial"
   ],
   "note": "One kind of unknown input is not rejected with an error (C36_violates, a panic in assessment scanning); C36_rejected, C36_no_panic and C36_error_partial cover the rest."
  },
  {
   "property": "C37",
   "status": "proved",
   "theorems": [
    "Gobufr.C37_fixed",
    "Gobufr.C37_delayed",
    "Gobufr.C37_nodes"
   ],
   "note": ""
  },
  {
   "property": "C38",
   "status": "proved",
   "theorems": [
    "Gobufr.C38_flags",
    "Gobufr.C38_local_confined"
   ],
   "note": ""
  },
  {
   "property": "C39",
   "status": "partial",
   "theorems": [
    "Gobufr.C39_never_marked",
    "Gobufr.C39_violates",
    "Gobufr.C39_marked_partial"
   ],
   "note": "Violated: the parser never marks an element as not present (C39_never_marked), so the elements below 221YYY are read (C39_violates). C39_marked_partial: a marked element would not be read."
  },
  {
   "property": "C40",
   "status": "partial",
   "theorems": [
    "Gobufr.C40_violates",
    "Gobufr.C40_complete_partial",
    "Gobufr.C40_truncated_partial"
   ],
   "note": "Violated: takeN pads the missing descriptors with id 0 (C40_violates). C40_truncated_partial / C40_complete_partial say when truncated input is still rejected."
  },
  {
   "property": "C41",
   "status": "partial",
   "theorems": [
    "Gobufr.C41_node",
    "Gobufr.C41_parts",
    "Gobufr.C41_end_panics",
    "Gobufr.C41_end_violates"
   ],
   "note": "Nodes and parts are as stated (C41_node, C41_parts); a template ending inside panics instead of being rejected (C41_end_panics, C41_end_violates)."
  },
  {
   "property": "C42",
   "status": "partial",
   "theorems": [
    "Gobufr.C42_numeric_partial",
    "Gobufr.C42_wide_violates",
    "Gobufr.C42_wide",
    "Gobufr.C42_negative",
    "Gobufr.C42_signed",
    "Gobufr.C42_string",
    "Gobufr.C42_binary"
   ],
   "note": "Proved for widths up to 64 bits; wider elements (201YYY) decode zero as missing (C42_wide_violates). C42_wide: of more than 64 bits all are consumed, only the last 64 count, and the value is missing if and only if these are zero. C42_negative: a negative width (201YYY again) reads nothing, the value is that of zero, and the position goes back."
  },
  {
   "property": "C43",
   "status": "partial",
   "theorems": [
    "Gobufr.C43_column_partial",
    "Gobufr.C43_width1_violates",
    "Gobufr.C43_width1",
    "Gobufr.C43_width0",
    "Gobufr.C43_missing_base"
   ],
   "note": "Proved for increments of 0 and 2..63 bits; one bit increments of all ones are not taken as missing (C43_width1_violates, C43_width1)."
  },
  {
   "property": "C44",
   "status": "proved",
   "theorems": [
    "Gobufr.C44_agree",
    "Gobufr.C44_agree_width1",
    "Gobufr.C44_agree_width0"
   ],
   "note": ""
  },
  {
   "property": "C45",
   "status": "proved",
   "theorems": [
    "Gobufr.C45_same",
    "Gobufr.C45_own",
    "Gobufr.C45_rejected"
   ],
   "note": ""
  },
  {
   "property": "C46",
   "status": "partial",
   "theorems": [
    "Gobufr.C46_signed_panics",
    "Gobufr.C46_violates",
    "Gobufr.C46_width0_partial"
   ],
   "note": "Violated: any non-missing increment panics (C46_signed_panics, C46_violates); width 0 is proved."
  },
  {
   "property": "C47",
   "status": "partial",
   "theorems": [
    "Gobufr.C47_diverges",
    "Gobufr.C47_diverges_incs",
    "Gobufr.C47_violates"
   ],
   "note": "Violated: the decoder does not terminate (C47_diverges, C47_diverges_incs, C47_violates)."
  },
  {
   "property": "C48",
   "status": "proved",
   "theorems": [
    "Gobufr.C48_zero_width"
   ],
   "note": ""
  },
  {
   "property": "C49",
   "status": "proved",
   "theorems": [
    "Gobufr.C49_cell_index",
    "Gobufr.C49_parsed"
   ],
   "note": ""
  },
  {
   "property": "C50",
   "status": "proved",
   "theorems": [
    "Gobufr.C50_shape"
   ],
   "note": ""
  },
  {
   "property": "C51",
   "status": "proved",
   "theorems": [
    "Gobufr.C51_subsets"
   ],
   "note": ""
  },
  {
   "property": "C52",
   "status": "proved",
   "theorems": [
    "Gobufr.C52_numbering"
   ],
   "note": ""
  },
  {
   "property": "C53",
   "status": "partial",
   "theorems": [
    "Gobufr.C53_partial",
    "Gobufr.C53_violates",
    "Gobufr.C53_violates_code"
   ],
   "note": "C53_violates and C53_violates_code refute the full statement: a truncated ReadBinary succeeds with fewer bits, and a signed code of width zero reads one bit. C53_partial covers every decoding without those two cases: the bits consumed are exactly those of the values in the payload."
  },
  {
   "property": "C54",
   "status": "proved",
   "theorems": [
    "Gobufr.C54_fixed",
    "Gobufr.C54_delayed"
   ],
   "note": ""
  },
  {
   "property": "C55",
   "status": "proved",
   "theorems": [
    "Gobufr.C55_sequence",
    "Gobufr.C55_inline"
   ],
   "note": ""
  },
  {
   "property": "C56",
   "status": "proved",
   "theorems": [
    "Gobufr.C56_start",
    "Gobufr.C56_element",
    "Gobufr.C56_set",
    "Gobufr.C56_keep"
   ],
   "note": ""
  },
  {
   "property": "C57",
   "status": "proved",
   "theorems": [
    "Gobufr.C57_element",
    "Gobufr.C57_open",
    "Gobufr.C57_close",
    "Gobufr.C57_keep"
   ],
   "note": ""
  },
  {
   "property": "C58",
   "status": "proved",
   "theorems": [
    "Gobufr.C58_targets",
    "Gobufr.C58_rejected",
    "Gobufr.C58_accepted",
    "Gobufr.C58_keep",
    "Gobufr.C58_assessment"
   ],
   "note": ""
  },
  {
   "property": "C59",
   "status": "proved",
   "theorems": [
    "Gobufr.C59_define",
    "Gobufr.C59_recall",
    "Gobufr.C59_cancel",
    "Gobufr.C59_cancel_backref",
    "Gobufr.C59_none",
    "Gobufr.C59_keep"
   ],
   "note": ""
  },
  {
   "property": "C60",
   "status": "partial",
   "theorems": [
    "Gobufr.C60_violates",
    "Gobufr.C60_top_partial",
    "Gobufr.C60_flat_partial",
    "Gobufr.C60_inner",
    "Gobufr.C60_none"
   ],
   "note": "Violated: the values in sequences and replications are not reached from the root (C60_violates), and without associated fields and assessments none of them ever is (C60_inner, C60_none). Proved for the values outside of them (C60_top_partial, C60_flat_partial)."
  },
  {
   "property": "C61",
   "status": "partial",
   "theorems": [
    "Gobufr.C61_like_target_partial",
    "Gobufr.C61_violates"
   ],
   "note": "Violated for difference statistics 225255 (C61_violates: the widening is tested on the target's descriptor). C61_like_target_partial: other markers are packed like their target."
  },
  {
   "property": "C62",
   "status": "partial",
   "theorems": [
    "Gobufr.C62_never",
    "Gobufr.C62_panics",
    "Gobufr.C62_violates",
    "Gobufr.C62_cancel_partial",
    "Gobufr.C62_use_partial"
   ],
   "note": "Violated: every definition panics (C62_never, C62_panics, C62_violates). Cancelling has no effect, as it should (C62_cancel_partial). Were a definition stored, elements would be read with it (C62_use_partial)."
  },
  {
   "property": "C63",
   "status": "partial",
   "theorems": [
    "Gobufr.C63_adhoc_panics",
    "Gobufr.C63_never_decodes",
    "Gobufr.C63_violates",
    "Gobufr.C63_defined_partial"
   ],
   "note": "Violated for ad-hoc bitmaps (assessments without 236000/237000): C63_adhoc_panics, C63_violates. C63_defined_partial: bitmaps with a defining operator decode."
  },
  {
   "property": "C64",
   "status": "partial",
   "theorems": [
    "Gobufr.C64_attached_partial",
    "Gobufr.C64_violates"
   ],
   "note": "The members' columns are attached to the targets in order (C64_attached_partial), but the factor of a delayed replication counts as one of them (C64_violates)."
  },
  {
   "property": "C65",
   "status": "partial",
   "theorems": [
    "Gobufr.C65_disagree_partial",
    "Gobufr.C65_agree",
    "Gobufr.C65_text_panics",
    "Gobufr.C65_element_partial",
    "Gobufr.C65_violates"
   ],
   "note": "The code violates it: if the factor is a text, the program panics, even if the texts are equal (C65_violates, C65_text_panics). Proved for factors that are elements holding numbers (C65_element_partial) or any values but texts (C65_disagree_partial); equal numbers are accepted (C65_agree)."
  },
  {
   "property": "C66",
   "status": "proved",
   "theorems": [
    "Gobufr.C66_start",
    "Gobufr.C66_ends",
    "Gobufr.C66_content",
    "Gobufr.C66_beyond",
    "Gobufr.C66_truncated_panics"
   ],
   "note": "Both readers: C66_ends, C66_beyond; C66_content says what is consumed from a binary stream. An input ending inside the padding panics instead of returning an error (C66_truncated_panics)."
  },
  {
   "property": "C67",
   "status": "proved",
   "theorems": [
    "Gobufr.C67_template",
    "Gobufr.C67_components",
    "Gobufr.C67_short",
    "Gobufr.C67_negative_panics"
   ],
   "note": "Binary reader (C67_template), for all widths up to 64 and descriptors that fit in an int; C67_components recovers F, X, Y for the widths 2, 6, 8."
  },
  {
   "property": "C68",
   "status": "proved",
   "theorems": [
    "Gobufr.C68_found",
    "Gobufr.C68_none",
    "Gobufr.C68_iff",
    "Gobufr.C68_terminates"
   ],
   "note": "Binary reader at a byte boundary (C68_found, C68_none, C68_iff). C68_terminates holds for every reader."
  },
  {
   "property": "C69",
   "status": "partial",
   "theorems": [
    "Gobufr.C69_never",
    "Gobufr.C69_violates",
    "Gobufr.C69_partial"
   ],
   "note": "Violated: CheckEOF never returns true (C69_never, C69_violates), since the error it compares with io.EOF is wrapped. C69_partial: with input left it returns false and consumes nothing."
  },
  {
   "property": "C70",
   "status": "proved",
   "theorems": [
    "Gobufr.C70_structure",
    "Gobufr.C70_rejects"
   ],
   "note": "Binary and flat JSON inputs (C70_structure); C70_rejects: an edition number other than 3 and 4 is an error."
  },
  {
   "property": "C71",
   "status": "partial",
   "theorems": [
    "Gobufr.C71_violates",
    "Gobufr.C71_any_four_bytes",
    "Gobufr.C71_short_partial"
   ],
   "note": "Violated: section 5 takes any four bytes (C71_any_four_bytes, C71_violates), since the assert function of the script is never called. C71_short_partial: an input that ends inside the signature is an error."
  },
  {
   "property": "C72",
   "status": "proved",
   "theorems": [
    "Gobufr.C72_next",
    "Gobufr.C72_stream",
    "Gobufr.C72_end"
   ],
   "note": "Any list of messages, each preceded by bytes that do not contain the start signature, decodes message by message; each message is the one decoded alone with its section start indices shifted. C72_end: after the last message the next run reports end of input."
  },
  {
   "property": "C73",
   "status": "proved",
   "theorems": [
    "Gobufr.C73_truncated",
    "Gobufr.C73_panic"
   ],
   "note": "No input cut strictly inside a message decodes successfully; the failure can be a Go panic instead of an error (C73_panic)."
  },
  {
   "property": "C74",
   "status": "proved",
   "theorems": [
    "Gobufr.C74_proxy_last"
   ],
   "note": ""
  },
  {
   "property": "C75",
   "status": "proved",
   "theorems": [
    "Gobufr.C75_order",
    "Gobufr.C75_first"
   ],
   "note": ""
  },
  {
   "property": "C76",
   "status": "proved",
   "theorems": [
    "Gobufr.C76_success",
    "Gobufr.C76_missing",
    "Gobufr.C76_agree",
    "Gobufr.C76_agree_float",
    "Gobufr.C76_wraps"
   ],
   "note": ""
  },
  {
   "property": "C77",
   "status": "partial",
   "theorems": [
    "Gobufr.C77_element",
    "Gobufr.C77_assoc",
    "Gobufr.C77_refval",
    "Gobufr.C77_repl_violates",
    "Gobufr.C77_repl_partial",
    "Gobufr.C77_unimplemented"
   ],
   "note": "The replication clause is violated: the visitor compares YYY, not XX, with the number of members (C77_repl_violates, C77_repl_partial). The other clauses are proved."
  },
  {
   "property": "C78",
   "status": "partial",
   "theorems": [
    "Gobufr.C78_dump",
    "Gobufr.C78_parse_trees",
    "Gobufr.C78_count_violates",
    "Gobufr.C78_count_partial"
   ],
   "note": "Layout and balance proved (C78_dump, C78_parse_trees). The line count fails when a replication factor is itself a compound node (C78_count_violates); proved otherwise."
  },
  {
   "property": "C79",
   "status": "proved",
   "theorems": [
    "Gobufr.C79_balanced",
    "Gobufr.C79_produce",
    "Gobufr.C79_no_stack_error"
   ],
   "note": ""
  },
  {
   "property": "C80",
   "status": "partial",
   "theorems": [
    "Gobufr.C80_violates",
    "Gobufr.C80_partial",
    "Gobufr.C80_parsed_partial"
   ],
   "note": "C80_violates refutes the full statement: a binary value cut by the end of input decodes without error and so depends on what follows. C80_partial: a decoding without cut binary values depends only on the bits it consumed, at any position. C80_parsed_partial states it from the unexpanded template."
  },
  {
   "property": "C81",
   "status": "proved",
   "theorems": [
    "Gobufr.C81_join",
    "Gobufr.C81_joined",
    "Gobufr.C81_place",
    "Gobufr.C81_canonical",
    "Gobufr.C81_clean_clean",
    "Gobufr.C81_paths_distinct"
   ],
   "note": ""
  },
  {
   "property": "C82",
   "status": "partial",
   "theorems": [
    "Gobufr.C82_violates",
    "Gobufr.C82_binary_partial"
   ],
   "note": "Violated for flat JSON, where the edition number is taken from the wrong token (C82_violates). C82_binary_partial: holds for every binary input at a byte boundary."
  },
  {
   "property": "C83",
   "status": "partial",
   "theorems": [
    "Gobufr.C83_fixed_partial",
    "Gobufr.C83_delayed",
    "Gobufr.C83_violates",
    "Gobufr.C83_harmless"
   ],
   "note": "Violated for delayed replications: the factor's cell counts as the first bit (C83_violates; C83_delayed says exactly what the bitmap covers). Proved for fixed replications (C83_fixed_partial)."
  },
  {
   "property": "C84",
   "status": "partial",
   "theorems": [
    "Gobufr.C84_violates",
    "Gobufr.C84_partial",
    "Gobufr.C84_numbers"
   ],
   "note": "Violated: fields declared with the undefined Lua name BIN come out as integers (C84_violates, C84_numbers shows this for every decoded message). Proved for all other bit fields, for messages whose optional section has at least 4 bytes; for the padding of section 4 under GoodPayload (no nil bit string and no zero-width signed code in the payload, see C53)."
  },
  {
   "property": "C85",
   "status": "partial",
   "theorems": [
    "Gobufr.C85_partial",
    "Gobufr.C85_violates"
   ],
   "note": "Violated for an optional section that announces less than 4 bytes: the position moves back (C85_violates). Proved for all other messages; for section 5 under GoodPayload (see C53)."
  },
  {
   "property": "C86",
   "status": "partial",
   "theorems": [
    "Gobufr.C86_data",
    "Gobufr.C86_place_partial",
    "Gobufr.C86_violates"
   ],
   "note": "For every kind of input (C86_data). The place is violated if the optional section announces less than 4 bytes (C86_violates); proved for all other byte inputs (C86_place_partial)."
  },
  {
   "property": "C87",
   "status": "partial",
   "theorems": [
    "Gobufr.C87_violates",
    "Gobufr.C87_sections_partial"
   ],
   "note": "Violated: the total length is never looked at (C87_violates). Proved: sections lie end to end by their own lengths and the decoder stops after section 5."
  },
  {
   "property": "C88",
   "status": "proved",
   "theorems": [
    "Gobufr.C88_uncompressed",
    "Gobufr.C88_compressed",
    "Gobufr.C88_unambiguous",
    "Gobufr.C88_lenient"
   ],
   "note": "C88_uncompressed, C88_compressed: writing then decoding gives back the values; C88_unambiguous: the bits determine them. The encoder is the inductive relation EncodeSpec.Coded; what it leaves out is listed in the statement."
  },
  {
   "property": "C89",
   "status": "proved",
   "theorems": [
    "Gobufr.C89_uncompressed",
    "Gobufr.C89_compressed",
    "Gobufr.C89_lenient"
   ],
   "note": "C89_uncompressed, C89_compressed: composing a message (Spec.Draft) and running the decoder gives back its fields, its template and its values, and leaves the input right behind the message. Fields of kind bits are left out because of C84; the data section is that of C88."
  },
  {
   "property": "C90",
   "status": "partial",
   "theorems": [
    "Gobufr.C90_never",
    "Gobufr.C90_violates",
    "Gobufr.C90_empty_violates",
    "Gobufr.C90_partial",
    "Gobufr.C90_exists",
    "Gobufr.C90_lossless",
    "Gobufr.C90_characters",
    "Gobufr.C90_cells"
   ],
   "note": "Violated by every message decoded from binary input: text is written in base64 (C90_never, C90_violates), and a payload without subsets as null (C90_empty_violates). Proved: with base64 for text the document shows everything in order (C90_partial), it exists iff all numbers are finite and writing never panics (C90_exists), and it determines all values (C90_lossless). A value that is a string of characters is shown with U+FFFD for every byte that belongs to no character (C90_characters)."
  },
  {
   "property": "C91",
   "status": "partial",
   "theorems": [
    "Gobufr.C91_never",
    "Gobufr.C91_violates",
    "Gobufr.C91_tokens",
    "Gobufr.C91_values_partial"
   ],
   "note": "Violated by every message decoded from binary input: its document is refused as JSON input under every configuration (C91_never, C91_violates). Proved: a reader meets one scalar for each value, in order (C91_tokens), and single numbers up to 2^53, truth values and strings of bits can be read back (C91_values_partial)."
  },
  {
   "property": "C92",
   "status": "partial",
   "theorems": [
    "Gobufr.C92_violates",
    "Gobufr.C92_partial",
    "Gobufr.C92_distinct"
   ],
   "note": "Violated: four units and one data type print under names of an older list (C92_violates). Proved: events and operators print as their names, units and data types as in that older list (C92_partial), and different numbers differ (C92_distinct)."
  },
  {
   "property": "C93",
   "status": "proved",
   "theorems": [
    "Gobufr.C93_id",
    "Gobufr.C93_descriptor",
    "Gobufr.C93_template",
    "Gobufr.C93_node",
    "Gobufr.C93_associated",
    "Gobufr.C93_column"
   ],
   "note": ""
  },
  {
   "property": "C94",
   "status": "partial",
   "theorems": [
    "Gobufr.C94_bitmaps",
    "Gobufr.C94_bitmaps_compressed",
    "Gobufr.C94_stuck",
    "Gobufr.C94_stuck_compressed",
    "Gobufr.C94_crashes",
    "Gobufr.C94_violates",
    "Gobufr.C94_causes_partial",
    "Gobufr.C94_payload"
   ],
   "note": "The code violates the property (C94_crashes, C94_violates: four different panics from 40 to 60 byte inputs). Proved: every crash has one of three causes (C94_causes_partial); data of harmless templates never crash (C94_payload); data of templates with bitmaps, markers, new reference values and ends of associated fields crash only at one of five places, which say what the panic is (C94_bitmaps, C94_bitmaps_compressed), and data that come to such a place do crash (C94_stuck, C94_stuck_compressed). Not covered: assessments within bitmaps, and in compressed data signed numbers (C46), skipped bits (C47) and texts as factors (C65)."
  },
  {
   "property": "C95",
   "status": "proved",
   "theorems": [
    "Gobufr.C95_script",
    "Gobufr.C95_new",
    "Gobufr.C95_lookup",
    "Gobufr.C95_count"
   ],
   "note": "For every script of the modelled library calls, by induction over the script; the Lua interpreter itself is external."
  },
  {
   "property": "C96",
   "status": "partial",
   "theorems": [
    "Gobufr.C96_violates",
    "Gobufr.C96_stays_partial",
    "Gobufr.C96_partial"
   ],
   "note": "The code violates it: NewMessage leaves the current section, and a field created before the next NewSection goes to the old message (C96_violates). Proved: it holds from the first section of a message on until another message is begun (C96_partial, C96_stays_partial)."
  },
  {
   "property": "C97",
   "status": "proved",
   "theorems": [
    "Gobufr.C97_run",
    "Gobufr.C97_earlier",
    "Gobufr.C97_stream"
   ],
   "note": "Refinement: the model with objects and references agrees with the model with values on which the other properties rest (C97_run), for any past of the factory; earlier messages read the same afterwards (C97_earlier), for any number of messages (C97_stream)."
  },
  {
   "property": "C98",
   "status": "partial",
   "theorems": [
    "Gobufr.C98_partial",
    "Gobufr.C98_agrees",
    "Gobufr.C98_document",
    "Gobufr.C98_violates"
   ],
   "note": "The code violates it for missing values: the JSON unpacker refuses null (C98_violates), although null is what the JSON output writes for them. Proved without missing values (C98_partial), and that the values of a binary data section given as JSON decode to the same subsets (C98_agrees), in particular the JSON document of a payload without text (C98_document; text is written in base64, see C90)."
  },
  {
   "property": "C99",
   "status": "partial",
   "theorems": [
    "Gobufr.C99_partial",
    "Gobufr.C99_exactly",
    "Gobufr.C99_violates",
    "Gobufr.C99_compressed_partial",
    "Gobufr.C99_compressed_exactly",
    "Gobufr.C99_compressed_violates"
   ],
   "note": "The code violates it: bits skipped with 206 need not be there (C99_violates), and compressed columns may have increments of one bit, sums that are too large, or no width (C99_compressed_violates). Proved if the reported values are packed properly, for templates whose replication factors and bitmaps are never without a value (C99_partial); with C88 this says exactly which data are decoded to which values (C99_exactly). For compressed data the same is proved with the columns that the code accepts (C99_compressed_partial, C99_compressed_exactly), stated as the relation Lenient. Not proved for bitmaps that contain operators of bitmaps, and for replication factors and bitmaps that may be without a value."
  },
  {
   "property": "C100",
   "status": "partial",
   "theorems": [
    "Gobufr.C100_uncompressed_partial",
    "Gobufr.C100_compressed_partial",
    "Gobufr.C100_uncompressed_exactly",
    "Gobufr.C100_compressed_exactly",
    "Gobufr.C100_violates"
   ],
   "note": "The code violates it: a local section that says it has less than four bytes is accepted (C100_violates). Proved if a local section has four bytes, the template is one of those of C99_partial and the values are packed properly (C100_uncompressed_partial), and for compressed data with the columns that are accepted, C99_compressed_partial, and at least one subset (C100_compressed_partial). With C89 these say exactly which inputs are decoded to which values (C100_uncompressed_exactly, C100_compressed_exactly). The total length and the stop signature are not checked by the code, so `Draft.Sound` does not ask for them (C87_violates)."
  },
  {
   "property": "C101",
   "status": "partial",
   "theorems": [
    "Gobufr.C101_message",
    "Gobufr.C101_section_partial",
    "Gobufr.C101_section_exits",
    "Gobufr.C101_violates"
   ],
   "note": "The code violates it: Section.Metadata ends the program for a name that was not stored (C101_violates, C101_section_exits). Proved for messages (C101_message) and for the names stored in a section (C101_section_partial)."
  },
  {
   "property": "C102",
   "status": "partial",
   "theorems": [
    "Gobufr.C102_order",
    "Gobufr.C102_position",
    "Gobufr.C102_cells",
    "Gobufr.C102_violates",
    "Gobufr.C102_index_partial",
    "Gobufr.C102_fresh"
   ],
   "note": "The code violates it: a subset that is added twice has only one index (C102_violates). Proved: order, positions and panics (C102_order, C102_position), cells (C102_cells), and the index if no subset is added twice (C102_index_partial)."
  },
  {
   "property": "C103",
   "status": "proved",
   "theorems": [
    "Gobufr.C103_place",
    "Gobufr.C103_succeeds_iff",
    "Gobufr.C103_fails",
    "Gobufr.C103_runs",
    "Gobufr.C103_shipped",
    "Gobufr.C103_unready",
    "Gobufr.C103_names",
    "Gobufr.C103_types",
    "Gobufr.C103_datatypes"
   ],
   "note": "C103_succeeds_iff, C103_fails, C103_runs, C103_names, C103_types, C103_datatypes; with the shipped boot.lua a run is the one of the other properties (C103_shipped). The file system and the Lua compiler are parameters."
  },
  {
   "property": "C104",
   "status": "partial",
   "theorems": [
    "Gobufr.C104_clean",
    "Gobufr.C104_place",
    "Gobufr.C104_partial",
    "Gobufr.C104_keeps",
    "Gobufr.C104_violates"
   ],
   "note": "The code violates it: the path of the directory becomes part of a list separated by semicolons, with question marks standing for the name of the module, so a directory with one of them in its path is not searched (C104_violates), although boot.lua is read from it. Proved for all other directories (C104_partial); the search path from before is kept (C104_keeps). How Lua searches (package.path) is taken from its manual."
  },
  {
   "property": "C105",
   "status": "partial",
   "theorems": [
    "Gobufr.C105_partial",
    "Gobufr.C105_only",
    "Gobufr.C105_never",
    "Gobufr.C105_violates"
   ],
   "note": "The code violates it: no message of this form is decoded (C105_never, C105_violates), because the type BIN of four fields is not defined and means a number, and because the eighth value, the update sequence number, is taken for the edition number. Proved for messages with these bits as numbers whose update sequence number is the edition number (C105_partial), and that no others are decoded (C105_only)."
  },
  {
   "property": "C106",
   "status": "partial",
   "theorems": [
    "Gobufr.C106_partial",
    "Gobufr.C106_compressed_partial",
    "Gobufr.C106_fewer",
    "Gobufr.C106_violates",
    "Gobufr.C106_violates_more"
   ],
   "note": "The code violates it both ways: with fewer values the data are accepted and the elements selected last get none (C106_fewer, C106_violates), with more values the decoder panics (C106_violates_more). Proved: data with a value or a marker too many, anywhere within sequences, replications and assessments, after any correct subsets and values, are never decoded; they end in the panic (C106_partial, C106_compressed_partial)."
  },
  {
   "property": "C107",
   "status": "partial",
   "theorems": [
    "Gobufr.C107_partial",
    "Gobufr.C107_panics",
    "Gobufr.C107_violates"
   ],
   "note": "The code violates it: g2nd_208 makes the decoder panic (C107_panics, C107_violates). Proved: the values of 207003, profiler_european and uegabe are those recorded, and the first subset of contrived (C107_partial). Missing: the other messages are compared outside Lean only (see DESIGN.md)."
  },
  {
   "property": "C108",
   "status": "partial",
   "theorems": [
    "Gobufr.C108_value",
    "Gobufr.C108_isMissing",
    "Gobufr.C108_section_partial",
    "Gobufr.C108_absent",
    "Gobufr.C108_violates",
    "Gobufr.C108_message"
   ],
   "note": "The code violates it: getField of a name that is not there gives a field object that is not nil, and using it panics (C108_absent, C108_violates). Proved: everything else (C108_value, C108_isMissing for fields of at most 64 bits, C108_section_partial, C108_message)."
  },
  {
   "property": "C109",
   "status": "partial",
   "theorems": [
    "Gobufr.C109_partial",
    "Gobufr.C109_violates"
   ],
   "note": "The code violates it: only the bits of the first subset are read, so values of other subsets are attached to elements that these subsets did not select (C109_violates). Proved: the selection is that of the first subset, and of every subset if they agree (C109_partial)."
  },
  {
   "property": "C110",
   "status": "proved",
   "theorems": [
    "Gobufr.UnitTests.C110_bits",
    "Gobufr.UnitTests.C110_json",
    "Gobufr.UnitTests.C110_binary",
    "Gobufr.UnitTests.C110_tables",
    "Gobufr.UnitTests.C110_expand",
    "Gobufr.UnitTests.C110_walk",
    "Gobufr.UnitTests.C110_keeper",
    "Gobufr.UnitTests.C110_parse",
    "Gobufr.UnitTests.C110_lint"
   ],
   "note": "One theorem for each group of tests; the kernel runs the model on the inputs of the tests. TestParser_State, which sets and clears a bit, has no counterpart: the flags are booleans in the model."
  },
  {
   "property": "C111",
   "status": "proved",
   "theorems": [
    "Gobufr.C111_read",
    "Gobufr.C111_truncated",
    "Gobufr.C111_write",
    "Gobufr.C111_write_read",
    "Gobufr.C111_read_write"
   ],
   "note": "C111_read, C111_truncated, C111_write, C111_write_read, C111_read_write. What the 32 bits mean is left to the operations of GoFloat; that widening and narrowing gives the pattern back is a law of IEEE 754 (LawfulGoFloat)."
  },
  {
   "property": "C112",
   "status": "proved",
   "theorems": [
    "Gobufr.C112_members",
    "Gobufr.C112_fixed"
   ],
   "note": "C112_members says it with a relation that follows the number of open associated fields; without associated fields and outside of compatible mode the members are a function of the template alone (C112_fixed). That sequences and replications have no node below the root is a violation of C60."
  },
  {
   "property": "C113",
   "status": "proved",
   "theorems": [
    "Gobufr.C113_tree",
    "Gobufr.C113_walk",
    "Gobufr.C113_compressed"
   ],
   "note": "C113_tree: the tree of the parser is the expansion. C113_walk: data that are not compressed, and JSON. C113_compressed: compressed data, with the numbers of the first subset (the factors of the others are equal to them, or the decoder errs). Operators that insert cells a walk cannot know of (203, 204, 206, 221, those of bitmaps) are outside the property."
  },
  {
   "property": "C114",
   "status": "proved",
   "theorems": [
    "Gobufr.C114_expand",
    "Gobufr.C114_compress",
    "Gobufr.C114_columns"
   ],
   "note": "C114_expand: from compressed to uncompressed. C114_compress: from uncompressed to compressed. C114_columns: there are columns for numbers and texts. Templates as in C99_partial. The conditions are needed: in compressed data texts may be longer than their element, one bit values may be missing, and only the bitmap of the first subset counts (C99, C109); signed columns with differences and skipped bits cannot be read (C46, C47)."
  },
  {
   "property": "C115",
   "status": "proved",
   "theorems": [
    "Gobufr.C115_template",
    "Gobufr.C115_more_template",
    "Gobufr.C115_message",
    "Gobufr.C115_more",
    "Gobufr.C115_stream",
    "Gobufr.C115_shadow"
   ],
   "note": "C115_template, C115_more_template: the parser. C115_message: messages, also rejected ones, with tables that agree on the ids the template leads to. C115_more, C115_stream: messages and streams with more entries. C115_shadow: entries for known ids in local tables can change a message, so the condition is needed."
  },
  {
   "property": "C116",
   "status": "partial",
   "theorems": [
    "Gobufr.C116_fuel",
    "Gobufr.C116_hopeless",
    "Gobufr.C116_partial",
    "Gobufr.C116_json",
    "Gobufr.C116_plain",
    "Gobufr.C116_uncompressed",
    "Gobufr.C116_ranked",
    "Gobufr.C116_violates"
   ],
   "note": "C116_violates: the decoder hangs on a compressed message with an element of unit binary. C116_partial: that is the only way: if decoding does not end then the input is binary, the data are compressed and the parsed template has an element of unit binary or skipped local bits. C116_json, C116_uncompressed, C116_plain: what ends. C116_fuel: more time does not change a result. C116_hopeless: once the template is parsed more time does not help. C116_ranked: a condition on tables for the absence of cycles."
  },
  {
   "property": "C117",
   "status": "proved",
   "theorems": [
    "Gobufr.C117_expand",
    "Gobufr.C117_compress",
    "Gobufr.C117_columns"
   ],
   "note": "C117_expand: from compressed to uncompressed, with the number of bits of the new data. C117_compress: from uncompressed to compressed, for any sizes of the columns. C117_columns: there are columns for numbers and texts, with their sizes. Templates as in C100; a local section must have its four bytes (C100_violates). The conditions are those of C114. Fields of kind bits are left out because of C84; nothing is said about the local bits and about padding."
  },
  {
   "property": "C118",
   "status": "partial",
   "theorems": [
    "Gobufr.C118_partial",
    "Gobufr.C118_bomb",
    "Gobufr.C118_violates"
   ],
   "note": "C118_partial: the bits of the values are bits of the input, and if each value takes bits there are no more values than bits; under the conditions of C53 (no value cut off by the end of the input, no negative width, no signed code of width 0). Without the condition it is violated: C118_bomb gives, for every k below 64, a message of 49 + 2 k bytes with no data that is decoded to 255 ^ k values, because 201YYY can take all bits away from a number and replications can be nested; C118_violates."
  },
  {
   "property": "C119",
   "status": "partial",
   "theorems": [
    "Gobufr.C119_partial",
    "Gobufr.C119_tens",
    "Gobufr.C119_value",
    "Gobufr.C119_refval",
    "Gobufr.C119_violates",
    "Gobufr.C119_message",
    "Gobufr.C119_compressed",
    "Gobufr.C119_only",
    "Gobufr.C119_close"
   ],
   "note": "C119_partial: for scales from 0 to 22 (ties to even); C119_only: the nearest double is unique, so it is the decoded one; C119_tens: for scales from -4 to -1 the number is exact if less than 2^53; C119_close: for scales from -200 to 200 the relative error is at most 2^-50; C119_value: the same for compressed data; C119_refval: reference values multiplied on account of 207YYY are exact; C119_message, C119_compressed: all of this for the numbers of decoded messages. For other negative scales it is violated: 002067 (scale -5) with the raw value 1 is decoded to 99999.99999999999, C119_violates."
  },
  {
   "property": "C120",
   "status": "proved",
   "theorems": [
    "Gobufr.C120_recover",
    "Gobufr.C120_injective"
   ],
   "note": "C120_recover: multiplied (exactly) by 10^scale a decoded number is less than 1/2 away from raw + reference value; C120_injective: different raw values give different values, also compared with missing. For whole messages: C119_message, C119_compressed."
  },
  {
   "property": "C121",
   "status": "partial",
   "theorems": [
    "Gobufr.C121_value",
    "Gobufr.C121_partial",
    "Gobufr.C121_packing",
    "Gobufr.C121_violates",
    "Gobufr.C121_signed"
   ],
   "note": "C121_value, C121_partial (messages): for codes, flags, text, opaque bits, and numbers of at most 47 bits with reference values of at most 47 bits and scales from -200 to 200; C121_packing: elements of table B under operators are such, if they stay within the limits. Outside it is violated: numbers of 60 bits have more digits than a double (C121_violates), and codes with a sign have two zeros (C121_signed). Compressed data is left out: the same values may be written with different bases and widths."
  },
  {
   "property": "C122",
   "status": "partial",
   "theorems": [
    "Gobufr.C122_element",
    "Gobufr.C122_packing",
    "Gobufr.C122_partial",
    "Gobufr.C122_compressed",
    "Gobufr.C122_template",
    "Gobufr.C122_template_compressed",
    "Gobufr.C122_violates",
    "Gobufr.C122_zero"
   ],
   "note": "C122_element: finite for reference values of 64 bits times 10^y, y up to 255, and scales of at least y - 227; C122_packing: elements of table B with scales of at least -100 are such, whatever the operators; C122_partial and C122_compressed: messages with such elements can be written as JSON; C122_template and C122_template_compressed: the same with a condition on the tables and the template only. The tables in the repository have scales from -16 to 19 and reference values of at most 31 bits. Violated for tables with scales of -400 (C122_violates: the numbers are infinite and the message has no document; C122_zero: or a NaN). As in C100, new reference values and improper widths are left out."
  },
  {
   "property": "C123",
   "status": "proved",
   "theorems": [
    "Gobufr.C123_plan",
    "Gobufr.C123_local",
    "Gobufr.C123_exactly"
   ],
   "note": "C123_plan: the plan of a template, the lengths and the places, for messages with and without compression; C123_local: values with the same bits at the same place are the same in any two messages; C123_exactly: with doubles and lossless packings (C121) exactly those are the same. The conditions are those of C100 (`simpleL`, `Proper`, `ProperColumn`), `Unvarying` says that the template has no delayed replication and no bitmaps."
  },
  {
   "property": "C124",
   "status": "proved",
   "theorems": [
    "Gobufr.C124_subsets",
    "Gobufr.C124_compressed",
    "Gobufr.C124_mixed"
   ],
   "note": "C124_subsets: any two subsets of uncompressed messages; C124_compressed: two compressed messages; C124_mixed: one of each. The conditions are those of C100; `Steered` says that replication factors and the elements of bitmaps are of class 31. The example decodes a message with three subsets of 101000 031001 012001."
  },
  {
   "property": "C125",
   "status": "partial",
   "theorems": [
    "Gobufr.C125_partial",
    "Gobufr.C125_stream",
    "Gobufr.C125_stuck",
    "Gobufr.C125_edition",
    "Gobufr.C125_violates",
    "Gobufr.C125_violates_edition"
   ],
   "note": "Violated: C125_violates (a section 4 that is one byte too short stops the decoder within a byte; no later call succeeds) and C125_violates_edition (a message of edition 2 is never passed). C125_stuck and C125_edition say this for all inputs of the kind. C125_partial: if the failure is at the end of a byte and no signature comes before the next message, the very next call returns it. C125_stream: and the calls after that return all messages behind it."
  },
  {
   "property": "C126",
   "status": "proved",
   "theorems": [
    "Gobufr.C126_value",
    "Gobufr.C126_read",
    "Gobufr.C126_strict",
    "Gobufr.C126_column",
    "Gobufr.C126_message"
   ],
   "note": "C126_value: the value of a raw number, with or without compression (C43); C126_read: what is read from the input; C126_strict: strictly, for sums of at most 48 bits and scales from -200 to 200; C126_column: the numbers of a compressed column are in the order of the increments, and none is less than the one of the base; C126_message: numbers at the same place in two subsets, for templates as in C123. That doubles are finite is C122."
  }
 ]
}