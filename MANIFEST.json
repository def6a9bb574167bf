{
 "claims": [
  {
   "property": "C01",
   "status": "partial",
   "theorems": [
    "Verif.Props.C01_byteparser_exact",
    "Verif.Props.C01_byteparser_is_windowed_cursor_partial",
    "Verif.Props.C01_cursor_at",
    "Verif.Props.C01_cursor_reads_input_in_order",
    "Verif.Props.C01_answers_are_the_cursors",
    "Verif.Props.C01_answers_length",
    "Verif.Props.C01_debug_panics",
    "Verif.Props.C01_fits",
    "Verif.Props.C01_debug_oversized_window_panics",
    "Verif.Props.C01_release_oversized_window_misreports"
   ],
   "note": "C01_byteparser_exact: for every input and operation list the results are the stated ones (Cursor.answers), in release builds up to the first request whose end is no usize; a window larger than the buffer panics in debug builds and misreports bytes_left in release builds. So the property as listed (cursor results for all arguments) holds except for these: C01_byteparser_is_windowed_cursor_partial."
  },
  {
   "property": "C02",
   "status": "proved",
   "theorems": [
    "Verif.Props.C02_same_leftover",
    "Verif.Props.C02_memoparser_eq_byteparser",
    "Verif.Props.C02_memoparser_same_trace",
    "Verif.Props.C02_log_dies"
   ],
   "note": "MemoParser and ByteParser give equal results for all inputs, operation lists and arguments, up to MemoParser dying in the diagnostic printout it makes before reporting an error or before the panic of a failing skip, which needs a wrapped sum in a release build (C02_memoparser_same_trace, C02_log_dies); same left-over bytes."
  },
  {
   "property": "C03",
   "status": "partial",
   "theorems": [
    "Verif.Props.C03_sliceparser_is_windowed_cursor",
    "Verif.Props.C03_sliceparser_agrees_with_byteparser_partial",
    "Verif.Props.C03_sliceparser_vs_byteparser",
    "Verif.Props.C03_slice_closes_root",
    "Verif.Props.C03_slice_loses_residue",
    "Verif.Props.C03_slice_test_target_on_root",
    "Verif.Props.C03_slice_closed"
   ],
   "note": "Agreement for well-bracketed operation lists, error numbers compared up to position, and oversized windows allowed for. Outside (closing the root scope, closing with residue, testing the root) the claim is false: witnesses C03_slice_*."
  },
  {
   "property": "C04",
   "status": "partial",
   "theorems": [
    "Verif.Props.C04_byteparser_no_ub_partial",
    "Verif.Props.C04_memoparser_no_ub_partial",
    "Verif.Props.C04_release_overflowing_request_is_ub",
    "Verif.Props.C04_sliceparser_no_ub",
    "Verif.Props.C04_release_wrapping_request_is_ub",
    "Verif.Props.C04_release_wrapping_window_rewinds",
    "Verif.Props.C04_byteparser_exact",
    "Verif.Props.C04_memoparser_exact"
   ],
   "note": "SliceParser: no UB in any state. ByteParser/MemoParser: no UB when overflow is checked, or if no requested end leaves usize. Exactly which calls are UB, after any calls with any arguments: C04_byteparser_exact, C04_memoparser_exact."
  },
  {
   "property": "C05",
   "status": "proved",
   "theorems": [
    "Verif.Props.C05_byteparser_failed_op_keeps_state",
    "Verif.Props.C05_memoparser_failed_op_keeps_state",
    "Verif.Props.C05_sliceparser_failed_op_keeps_state",
    "Verif.Props.C05_byteparser_failed_consume_arr_keeps_state",
    "Verif.Props.C05_memoparser_failed_consume_arr_keeps_state",
    "Verif.Props.C05_sliceparser_failed_consume_arr_keeps_state"
   ],
   "note": "All three parsers, all states (reachable or not)."
  },
  {
   "property": "C06",
   "status": "partial",
   "theorems": [
    "Verif.Props.C06_byteparser_enforce_target_partial",
    "Verif.Props.C06_memoparser_enforce_target_partial",
    "Verif.Props.C06_sliceparser_enforce_target_partial",
    "Verif.Props.C06_byteparser_any",
    "Verif.Props.C06_memoparser_any"
   ],
   "note": "ByteParser/MemoParser: as listed, in release builds unless a request has wrapped; C06_byteparser_any and C06_memoparser_any give the answers after any calls. SliceParser only while a window is open (it closes its root scope: C03_slice_closes_root)."
  },
  {
   "property": "C07",
   "status": "partial",
   "theorems": [
    "Verif.Props.C07_byteparser_remainder",
    "Verif.Props.C07_memoparser_remainder",
    "Verif.Props.C07_sliceparser_remainder",
    "Verif.Props.C07_byteparser_any",
    "Verif.Props.C07_byteparser_reads_any",
    "Verif.Props.C07_memoparser_reads_any"
   ],
   "note": "All three parsers. Exact for every n: in release builds set_fit(n) also succeeds if the end is no usize, and such a consume(n) is UB; otherwise as listed. What every read does after any calls, wrapped sums included: C07_byteparser_reads_any, C07_memoparser_reads_any."
  },
  {
   "property": "C08",
   "status": "partial",
   "theorems": [
    "Verif.Props.C08_byteparser_any",
    "Verif.Props.C08_memoparser_any",
    "Verif.Props.C08_memo_log_fails",
    "Verif.Props.C08_self_terminating_of_lawful",
    "Verif.Props.C08_byteparser_self_terminating_partial",
    "Verif.Props.C08_memoparser_self_terminating_partial",
    "Verif.Props.C08_sliceparser_self_terminating"
   ],
   "note": "All three parsers, all predicates. ByteParser and MemoParser after any calls: C08_byteparser_any, C08_memoparser_any; where a wrapped request in a release build has put the end of the window before the cursor they panic (C41_release_wrapped, C08_memo_log_fails)."
  },
  {
   "property": "C09",
   "status": "partial",
   "theorems": [
    "Verif.Props.C09_checked_partial",
    "Verif.Props.C09_checked_errors",
    "Verif.Props.C09_values",
    "Verif.Props.C09_partial",
    "Verif.Props.C09_errors",
    "Verif.Props.C09_fails",
    "Verif.Props.C09_vpadded_partial",
    "Verif.Props.C09_release_exact",
    "Verif.Props.C09_release_byte_memo",
    "Verif.Props.C09_release_slice"
   ],
   "note": "Values: proved for all types (C09_values). Errors: all types without VPadded (C09_partial), all types on all inputs on which a debug build does not panic (C09_checked_partial), and types with VPadded whose contents do not take all that seems left (C09_vpadded_partial). Missing for errors: other contents of VPadded that finds too few bytes in release builds (C09_fails; what happens then is exact: C46_release_exact), arrays over isize::MAX + 1 bytes, SliceParser under check_complete_parse"
  },
  {
   "property": "C10",
   "status": "proved",
   "theorems": [
    "Verif.Props.C10_int_encode",
    "Verif.Props.C10_types",
    "Verif.Props.C10_int_decode",
    "Verif.Props.C10_int_roundtrip",
    "Verif.Props.C10_int_short",
    "Verif.Props.C10_f64"
   ],
   "note": "All integer types and f64, all values, all byte strings, every parser state."
  },
  {
   "property": "C11",
   "status": "proved",
   "theorems": [
    "Verif.Props.C11_bool",
    "Verif.Props.C11_bool_reject",
    "Verif.Props.C11_bool_canonical"
   ],
   "note": "All bytes, every parser state."
  },
  {
   "property": "C12",
   "status": "proved",
   "theorems": [
    "Verif.Props.C12_N_roundtrip"
   ],
   "note": ""
  },
  {
   "property": "C13",
   "status": "proved",
   "theorems": [
    "Verif.Props.C13_Z_roundtrip"
   ],
   "note": ""
  },
  {
   "property": "C14",
   "status": "proved",
   "theorems": [
    "Verif.Props.C14_N_minimal",
    "Verif.Props.C14_Z_minimal",
    "Verif.Props.C14_N_shape",
    "Verif.Props.C14_Z_shape"
   ],
   "note": "Minimality against every byte string any parser accepts."
  },
  {
   "property": "C15",
   "status": "proved",
   "theorems": [
    "Verif.Props.C15_decode",
    "Verif.Props.C15_reject",
    "Verif.Props.C15_dichotomy",
    "Verif.Props.C15_same"
   ],
   "note": ""
  },
  {
   "property": "C16",
   "status": "partial",
   "theorems": [
    "Verif.Props.C16_Z_estimate",
    "Verif.Props.C16_N_estimate_partial",
    "Verif.Props.C16_N_estimate_fails_at_zero",
    "Verif.Props.C16_N_exact"
   ],
   "note": "Z in full; N except 0, where the estimate is one too small (C16_N_exact; witness C16_N_estimate_fails_at_zero)."
  },
  {
   "property": "C17",
   "status": "proved",
   "theorems": [
    "Verif.Props.C17_encode",
    "Verif.Props.C17_decode_none",
    "Verif.Props.C17_decode_some",
    "Verif.Props.C17_payload_error",
    "Verif.Props.C17_reject",
    "Verif.Props.C17_reject_empty",
    "Verif.Props.C17_roundtrip"
   ],
   "note": "Arbitrary payload codecs."
  },
  {
   "property": "C18",
   "status": "proved",
   "theorems": [
    "Verif.Props.C18_encode",
    "Verif.Props.C18_decode_none",
    "Verif.Props.C18_decode_some",
    "Verif.Props.C18_payload_error",
    "Verif.Props.C18_roundtrip",
    "Verif.Props.C18_collision"
   ],
   "note": "Arbitrary payload codecs; the collision is proved too."
  },
  {
   "property": "C19",
   "status": "partial",
   "theorems": [
    "Verif.Props.C19_limits",
    "Verif.Props.C19_encode",
    "Verif.Props.C19_decode",
    "Verif.Props.C19_residue",
    "Verif.Props.C19_payload_error",
    "Verif.Props.C19_too_long",
    "Verif.Props.C19_too_long_release",
    "Verif.Props.C19_too_long_debug",
    "Verif.Props.C19_prefix_range",
    "Verif.Props.C19_prefix_short",
    "Verif.Props.C19_cases",
    "Verif.Props.C19_roundtrip",
    "Verif.Props.C19_too_long_exact",
    "Verif.Props.C19_too_long_any"
   ],
   "note": "In full except the debug build of ByteParser/MemoParser, where a prefix larger than the buffer panics (witness C19_too_long_debug); exactly when it panics, and which numbers the error has otherwise: C19_too_long_exact, also after any calls: C19_too_long_any."
  },
  {
   "property": "C20",
   "status": "partial",
   "theorems": [
    "Verif.Props.C20_decode",
    "Verif.Props.C20_residue",
    "Verif.Props.C20_payload_error",
    "Verif.Props.C20_encode",
    "Verif.Props.C20_short_debug",
    "Verif.Props.C20_short_release",
    "Verif.Props.C20_short_release_exact",
    "Verif.Props.C20_short_release_memo"
   ],
   "note": "In full when at least N bytes are readable; otherwise debug builds panic (C20_short_debug) and release builds wrap, exactly as C20_short_release_exact and C20_short_release_memo say (witness of undefined behaviour: C20_short_release)."
  },
  {
   "property": "C21",
   "status": "partial",
   "theorems": [
    "Verif.Props.C21_encode",
    "Verif.Props.C21_decode",
    "Verif.Props.C21_reject",
    "Verif.Props.C21_short_partial",
    "Verif.Props.C21_payload_error",
    "Verif.Props.C21_roundtrip",
    "Verif.Props.C21_short_exact",
    "Verif.Props.C21_huge_fails"
   ],
   "note": "Arbitrary payload codecs, both settings of the padding check. Missing: padding of more than isize::MAX + 1 bytes need not be refused when the payload leaves less room than that (C21_huge_fails: Padded<u8, usize::MAX> panics in debug and is undefined in release); C21_short_exact says exactly what happens for every N."
  },
  {
   "property": "C22",
   "status": "proved",
   "theorems": [
    "Verif.Props.C22_bytes"
   ],
   "note": ""
  },
  {
   "property": "C23",
   "status": "proved",
   "theorems": [
    "Verif.Props.C23_encode",
    "Verif.Props.C23_roundtrip",
    "Verif.Props.C23_total",
    "Verif.Props.C23_repair",
    "Verif.Props.C23_read",
    "Verif.Props.C23_valid_prefix",
    "Verif.Props.C23_lossy"
   ],
   "note": ""
  },
  {
   "property": "C24",
   "status": "proved",
   "theorems": [
    "Verif.Props.C24_encode",
    "Verif.Props.C24_decode",
    "Verif.Props.C24_short",
    "Verif.Props.C24_construct",
    "Verif.Props.C24_no_ub",
    "Verif.Props.C24_access",
    "Verif.Props.C24_from_str",
    "Verif.Props.C24_utf8",
    "Verif.Props.C24_lower_hex"
   ],
   "note": ""
  },
  {
   "property": "C25",
   "status": "proved",
   "theorems": [
    "Verif.Props.C25_encode",
    "Verif.Props.C25_decode",
    "Verif.Props.C25_element_error",
    "Verif.Props.C25_roundtrip",
    "Verif.Props.C25_terminates",
    "Verif.Props.C25_diverges"
   ],
   "note": "encoding, decoding, errors, round trip, termination under progress and divergence without it, for arbitrary element codecs"
  },
  {
   "property": "C26",
   "status": "proved",
   "theorems": [
    "Verif.Props.C26_encode",
    "Verif.Props.C26_exact",
    "Verif.Props.C26_decode",
    "Verif.Props.C26_short",
    "Verif.Props.C26_element_error",
    "Verif.Props.C26_roundtrip",
    "Verif.Props.C26_terminates",
    "Verif.Props.C26_zero_width"
   ],
   "note": "for arbitrary element codecs; zero-width elements do not round-trip (C26_zero_width), which is why the statement asks for non-empty elements"
  },
  {
   "property": "C27",
   "status": "proved",
   "theorems": [
    "Verif.Props.C27_encode",
    "Verif.Props.C27_decode_bound",
    "Verif.Props.C27_decode",
    "Verif.Props.C27_element_error",
    "Verif.Props.C27_too_many",
    "Verif.Props.C27_roundtrip",
    "Verif.Props.C27_terminates",
    "Verif.Props.C27_lim_bound",
    "Verif.Props.C27_fix_bound",
    "Verif.Props.C27_constructors",
    "Verif.Props.C27_push",
    "Verif.Props.C27_set"
   ],
   "note": "bound for all histories of calls with arbitrary (even non-fused) iterators and for decoding with arbitrary element codecs"
  },
  {
   "property": "C28",
   "status": "proved",
   "theorems": [
    "Verif.Props.C28_encode",
    "Verif.Props.C28_width",
    "Verif.Props.C28_decode",
    "Verif.Props.C28_roundtrip",
    "Verif.Props.C28_reject",
    "Verif.Props.C28_short",
    "Verif.Props.C28_cases",
    "Verif.Props.C28_exact",
    "Verif.Props.C28_api"
   ],
   "note": "all declarations with distinct in-range discriminants (others do not compile); the rejecting run leaves everything behind the tag unread; get_tagval, is_valid_tag, get_name, TryFrom included"
  },
  {
   "property": "C29",
   "status": "proved",
   "theorems": [
    "Verif.Props.C29_variants",
    "Verif.Props.C29_encode",
    "Verif.Props.C29_width",
    "Verif.Props.C29_tagval",
    "Verif.Props.C29_decode",
    "Verif.Props.C29_payload_error",
    "Verif.Props.C29_roundtrip",
    "Verif.Props.C29_reject",
    "Verif.Props.C29_short",
    "Verif.Props.C29_repeated"
   ],
   "note": "all declarations with distinct tags, arbitrary payload codecs; C29_repeated shows that distinctness is needed"
  },
  {
   "property": "C30",
   "status": "proved",
   "theorems": [
    "Verif.Props.C30_encode",
    "Verif.Props.C30_decode",
    "Verif.Props.C30_field_error",
    "Verif.Props.C30_roundtrip",
    "Verif.Props.C30_greedy_field"
   ],
   "note": "arbitrary field codecs; C30_greedy_field shows the side condition is needed"
  },
  {
   "property": "C31",
   "status": "partial",
   "theorems": [
    "Verif.Props.C31_encode",
    "Verif.Props.C31_decode",
    "Verif.Props.C31_reject",
    "Verif.Props.C31_exact",
    "Verif.Props.C31_short",
    "Verif.Props.C31_to_i32",
    "Verif.Props.C31_from_i32",
    "Verif.Props.C31_unfit",
    "Verif.Props.C31_underlying",
    "Verif.Props.C31_try_from_partial",
    "Verif.Props.C31_try_from_fails",
    "Verif.Props.C31_try_from_low_partial",
    "Verif.Props.C31_try_from_exact"
   ],
   "note": "Everything proved except TryFrom<number> for MIN > 0, which the code gets wrong: C31_try_from_exact says what it does instead for every number and backer (witness C31_try_from_fails); for MIN <= 0 it is proved."
  },
  {
   "property": "C32",
   "status": "proved",
   "theorems": [
    "Verif.Props.C32_f32_exact",
    "Verif.Props.C32_f32",
    "Verif.Props.C32_encode",
    "Verif.Props.C32_decode",
    "Verif.Props.C32_reject",
    "Verif.Props.C32_exact",
    "Verif.Props.C32_nan",
    "Verif.Props.C32_constructors",
    "Verif.Props.C32_default"
   ],
   "note": ""
  },
  {
   "property": "C33",
   "status": "partial",
   "theorems": [
    "Verif.Props.C33_to_hex",
    "Verif.Props.C33_bytes",
    "Verif.Props.C33_accepts",
    "Verif.Props.C33_macro",
    "Verif.Props.C33_roundtrip",
    "Verif.Props.C33_rejects_partial",
    "Verif.Props.C33_exact",
    "Verif.Props.C33_panics_iff",
    "Verif.Props.C33_fails"
   ],
   "note": "Conversion back and forth, acceptance of every digit-pair text, and rejection of ASCII texts without plus signs are proved; exact acceptance and panic conditions are in C33_exact and C33_panics_iff. The full statement is false: C33_fails gives an accepted text with a plus sign and a text that makes the conversion panic."
  },
  {
   "property": "C34",
   "status": "partial",
   "theorems": [
    "Verif.Props.C34_exact",
    "Verif.Props.C34_equal",
    "Verif.Props.C34_different",
    "Verif.Props.C34_partial",
    "Verif.Props.C34_fails"
   ],
   "note": "C34_exact holds for all texts; C34_partial is the full claim for ASCII texts without plus signs; C34_fails refutes it beyond that."
  },
  {
   "property": "C35",
   "status": "proved",
   "theorems": [
    "Verif.Props.C35_targets_agree",
    "Verif.Props.C35_memo_reached"
   ],
   "note": "All schema types, values, five targets and contents, all configurations."
  },
  {
   "property": "C36",
   "status": "partial",
   "theorems": [
    "Verif.Props.C36_agree",
    "Verif.Props.C36_panics",
    "Verif.Props.C36_override_partial",
    "Verif.Props.C36_override_fails",
    "Verif.Props.C36_overrides",
    "Verif.Props.C36_override_exact",
    "Verif.Props.C36_override_all"
   ],
   "note": "Everything in full except enc_len under the feature enc_len_estimable_override, where it is too small by the number of N zeros in the value (C36_override_exact; C36_override_all also for unfilled FixSeqs; witness C36_override_fails)."
  },
  {
   "property": "C37",
   "status": "partial",
   "theorems": [
    "Verif.Props.C37_known_partial",
    "Verif.Props.C37_estimate_partial",
    "Verif.Props.C37_fails",
    "Verif.Props.C37_exact",
    "Verif.Props.C37_all",
    "Verif.Props.C37_no_surplus"
   ],
   "note": "For every value that can be encoded the estimate is the length, less the number of N zeros, more the vacancies in FixSeqs estimated by their type (C37_all; C37_no_surplus and C37_exact for well-formed values); so it fails for N zero and for unfilled FixSeq (C37_fails)."
  },
  {
   "property": "C38",
   "status": "proved",
   "theorems": [
    "Verif.Props.C38_splitvec_balanced",
    "Verif.Props.C38_splitvec_span_iteration",
    "Verif.Props.C38_splitvec_forward_iteration",
    "Verif.Props.C38_span_lengths",
    "Verif.Props.C38_span_count",
    "Verif.Props.C38_check_sum",
    "Verif.Props.C38_unfreeze_unbalances"
   ],
   "note": "All histories of public operations, both iteration ends; the feature-gated unfreeze_spanbuffer API breaks it: witness C38_unfreeze_unbalances."
  },
  {
   "property": "C39",
   "status": "proved",
   "theorems": [
    "Verif.Props.C39_splitvec_is_list_of_segments",
    "Verif.Props.C39_concat_drains_other",
    "Verif.Props.C39_append_drains"
   ],
   "note": "SplitVec refines a list of closed segments plus an open one for all operation lists."
  },
  {
   "property": "C40",
   "status": "proved",
   "theorems": [
    "Verif.Props.C40_memo_builder",
    "Verif.Props.C40_strict_builder",
    "Verif.Props.C40_derived",
    "Verif.Props.C40_calls_not_separated"
   ],
   "note": "All histories of both builders. The documented separation of bytes by method call does not exist (C40_calls_not_separated)."
  },
  {
   "property": "C41",
   "status": "partial",
   "theorems": [
    "Verif.Props.C41_cleanup",
    "Verif.Props.C41_reached_partial",
    "Verif.Props.C41_slice",
    "Verif.Props.C41_is_empty_misses",
    "Verif.Props.C41_leftover",
    "Verif.Props.C41_append_drains",
    "Verif.Props.C41_byteparser_any",
    "Verif.Props.C41_release_wrapped",
    "Verif.Props.C41_memoparser_any"
   ],
   "note": "cleanup of all three parsers returns exactly the unread bytes with their segmentation. ByteParser and MemoParser after any calls: C41_byteparser_any, C41_memoparser_any; where a wrapped request in a release build has put the end of the window before the cursor, cleanup is UB (C41_release_wrapped). C41_is_empty_misses records that LeftoverState::is_empty deviates from its documentation."
  },
  {
   "property": "C42",
   "status": "partial",
   "theorems": [
    "Verif.Props.C42_collect_partial",
    "Verif.Props.C42_collect_any",
    "Verif.Props.C42_collect_loses",
    "Verif.Props.C42_extend_loses",
    "Verif.Props.C42_collect_fails"
   ],
   "note": "The property fails: C42_collect_loses and C42_extend_loses show that collecting or extending by elements that fit stores none of them; what holds (panic beyond the bound) is C42_collect_partial"
  },
  {
   "property": "C43",
   "status": "partial",
   "theorems": [
    "Verif.Props.C43_without",
    "Verif.Props.C43_with_partial",
    "Verif.Props.C43_same_value",
    "Verif.Props.C43_trailing",
    "Verif.Props.C43_errors",
    "Verif.Props.C43_slice_fails",
    "Verif.Props.C43_fails",
    "Verif.Props.C43_unit_checked",
    "Verif.Props.C43_unit_unchecked",
    "Verif.Props.C43_unit_decode",
    "Verif.Props.C43_decode",
    "Verif.Props.C43_text"
   ],
   "note": "Proved for all types on ByteParser and MemoParser, and without the check on SliceParser. Missing: SliceParser under check_complete_parse (C43_slice_fails shows it never succeeds)"
  },
  {
   "property": "C44",
   "status": "partial",
   "theorems": [
    "Verif.Props.C44_byteparser_skip_exactly_partial",
    "Verif.Props.C44_memoparser_skip_exactly_partial",
    "Verif.Props.C44_release_overflow",
    "Verif.Props.C44_sliceparser_skip_exactly",
    "Verif.Props.C44_release_wraps",
    "Verif.Props.C44_skip_of_lawful",
    "Verif.Props.C44_fast_kv_search_of_lawful",
    "Verif.Props.C44_skip_dynamic",
    "Verif.Props.C44_skip_dynamic_short",
    "Verif.Props.C44_skip_dynamic_too_long",
    "Verif.Props.C44_skip_dynamic_range_panics",
    "Verif.Props.C44_skip_dynamic_is_decoding",
    "Verif.Props.C44_skip_dynamic_schema",
    "Verif.Props.C44_skip_dynamic_iff",
    "Verif.Props.C44_byteparser_any",
    "Verif.Props.C44_memoparser_any",
    "Verif.Props.C44_byteparser_skip_any",
    "Verif.Props.C44_memoparser_skip_any"
   ],
   "note": "skip, skip_exactly and skip_dynamic on all parsers, for ByteParser and MemoParser also after any calls (C44_*_any). skip_exactly with an end that is no usize is excluded in release builds, where it wraps (C44_release_overflow) whereas consume is UB. C44_skip_dynamic_range_panics: a u30 prefix out of range panics in skip_dynamic, whereas decoding reports an error."
  },
  {
   "property": "C45",
   "status": "partial",
   "theorems": [
    "Verif.Props.C45_prefix_exact",
    "Verif.Props.C45_all_targets",
    "Verif.Props.C45_override_partial",
    "Verif.Props.C45_override_fails",
    "Verif.Props.C45_override_exact",
    "Verif.Props.C45_override_misread",
    "Verif.Props.C45_override_all"
   ],
   "note": "In full without feature enc_len_estimable_override; with it the prefix is too small by the number of N zeros in the payload (C45_override_exact, C45_override_all also for unfilled FixSeqs, C45_override_fails), which can be misread without an error (C45_override_misread)."
  },
  {
   "property": "C46",
   "status": "partial",
   "theorems": [
    "Verif.Props.C46_checked_partial",
    "Verif.Props.C46_release_partial",
    "Verif.Props.C46_partial",
    "Verif.Props.C46_fails",
    "Verif.Props.C46_release_exact",
    "Verif.Props.C46_vpadded_release_partial",
    "Verif.Props.C46_release_slice_partial",
    "Verif.Props.C46_recursive_diverge_exact",
    "Verif.Props.C46_recursive_slice_partial",
    "Verif.Props.C46_panic_exact"
   ],
   "note": "All types whose sequence elements read something, VPadded included where it finds enough bytes (C46_checked_partial), and in release builds VPadded in general if its contents begin with something that is read (C46_vpadded_release_partial). When decoding panics is exact (C46_panic_exact), how release builds end as well (C46_release_exact; recursive types: C57_recursive_exact, C46_recursive_diverge_exact). Missing: debug panics, other VPadded on too short input, sequences of elements that may read nothing, where it fails (C46_fails)"
  },
  {
   "property": "C47",
   "status": "partial",
   "theorems": [
    "Verif.Props.C47_reencode_partial",
    "Verif.Props.C47_canonical",
    "Verif.Props.C47_text_fails",
    "Verif.Props.C47_nullable_fails"
   ],
   "note": "Proved with room for replacement characters in prefixes around text; fails for Dynamic<u8,String> and Nullable of types with empty encodings (witnesses)."
  },
  {
   "property": "C48",
   "status": "partial",
   "theorems": [
    "Verif.Props.C48_override_fails",
    "Verif.Props.C48_injective_partial",
    "Verif.Props.C48_prefix_free_partial",
    "Verif.Props.C48_nullable_fails"
   ],
   "note": "For uniquely decodable types; Nullable of a type with empty encodings is not injective (C48_nullable_fails). With enc_len_estimable_override different values can have the same encoding if there is an N of value 0 under a length prefix (C48_override_fails)."
  },
  {
   "property": "C49",
   "status": "proved",
   "theorems": [
    "Verif.Props.C49_local",
    "Verif.Props.C49_self_delimiting",
    "Verif.Props.C49_bytes_not_local"
   ],
   "note": "For all types whose sizes are usizes and that do not ask for the end of the window (C49_bytes_not_local)."
  },
  {
   "property": "C50",
   "status": "partial",
   "theorems": [
    "Verif.Props.C50_constants_partial",
    "Verif.Props.C50_fails",
    "Verif.Props.C50_positive"
   ],
   "note": "Proved for MIN <= 0; for MIN > 0 it is false (C50_fails), and C50_positive says exactly what the constants and conversions give."
  },
  {
   "property": "C51",
   "status": "partial",
   "theorems": [
    "Verif.Props.C51_override_exact",
    "Verif.Props.C51_override_fails",
    "Verif.Props.C51_round_trip_partial",
    "Verif.Props.C51_try_decode_partial",
    "Verif.Props.C51_nullable_fails"
   ],
   "note": "All uniquely decodable schema types, all parsers; Nullable of a type with empty encodings fails (C51_nullable_fails). With enc_len_estimable_override a value comes back exactly if it has no N of value 0 under a length prefix (C51_override_exact, C51_override_fails)."
  },
  {
   "property": "C52",
   "status": "partial",
   "theorems": [
    "Verif.Props.C52_override_exact",
    "Verif.Props.C52_values",
    "Verif.Props.C52_encode",
    "Verif.Props.C52_targets_agree",
    "Verif.Props.C52_estimate",
    "Verif.Props.C52_round_trip_partial",
    "Verif.Props.C52_injective_partial",
    "Verif.Props.C52_reencode_partial",
    "Verif.Props.C52_canonical",
    "Verif.Props.C52_local",
    "Verif.Props.C52_total",
    "Verif.Props.C52_unguarded_fails",
    "Verif.Props.C52_estimate_exact",
    "Verif.Props.C52_estimate_all"
   ],
   "note": "Values, encoding, targets, injectivity, locality, termination of guarded recursion, round trip. Partial: with enc_len_estimable_override a value comes back exactly if it has no N of value 0 under a length prefix (C52_override_exact); the estimate is off by the amount in C52_estimate_all; re-encoding carries the conditions of C47. Stack depth is not modelled."
  },
  {
   "property": "C53",
   "status": "proved",
   "theorems": [
    "Verif.Props.C53_length_prefix",
    "Verif.Props.C53_foretells",
    "Verif.Props.C53_override_exact",
    "Verif.Props.C53_override_all"
   ],
   "note": "C53_length_prefix and C53_foretells: for all payload codecs, values, prefix types and profiles; with the feature that trusts length estimates C53_override_exact and C53_override_all say exactly what the prefix is."
  },
  {
   "property": "C54",
   "status": "proved",
   "theorems": [
    "Verif.Props.C54_to_machine"
   ],
   "note": "For all numbers and target types; num-bigint's TryFrom is modelled by its documented meaning."
  },
  {
   "property": "C55",
   "status": "partial",
   "theorems": [
    "Verif.Props.C55_dump_partial",
    "Verif.Props.C55_dump_any",
    "Verif.Props.C55_skip_exactly_garbles"
   ],
   "note": "Proved for all runs without skip_exactly; skip_exactly is not logged, so the full statement is false of the code: C55_skip_exactly_garbles. C55_dump_any says what holds for all runs."
  },
  {
   "property": "C56",
   "status": "proved",
   "theorems": [
    "Verif.Props.C56_values",
    "Verif.Props.C56_solves",
    "Verif.Props.C56_least",
    "Verif.Props.C56_unique"
   ],
   "note": "Fixed-point equations, bijection of values, least solution, uniqueness for guarded recursion."
  },
  {
   "property": "C57",
   "status": "partial",
   "theorems": [
    "Verif.Props.C57_checked_partial",
    "Verif.Props.C57_checked_recursive_partial",
    "Verif.Props.C57_exact",
    "Verif.Props.C57_vpadded_partial",
    "Verif.Props.C57_recursive_exact",
    "Verif.Props.C57_recursive_vpadded_partial",
    "Verif.Props.C57_slice",
    "Verif.Props.C57_debug",
    "Verif.Props.C57_entry_points",
    "Verif.Props.C57_release_partial",
    "Verif.Props.C57_only_rejected",
    "Verif.Props.C57_fails",
    "Verif.Props.C57_recursive",
    "Verif.Props.C57_recursive_release_partial"
   ],
   "note": "All types in debug builds and on SliceParser; release builds without VPadded, with it on all inputs on which a debug build does not panic (C57_checked_partial), and with VPadded whose contents do not take all that seems left (C57_vpadded_partial, C57_recursive_vpadded_partial). Missing: other VPadded that finds too few bytes in release on ByteParser/MemoParser, where it fails (C57_fails), exactly as C57_exact says; such input is accepted by no parser (C57_only_rejected)."
  },
  {
   "property": "C58",
   "status": "proved",
   "theorems": [
    "Verif.Props.C58_out",
    "Verif.Props.C58_in",
    "Verif.Props.C58_inverse",
    "Verif.Props.C58_check",
    "Verif.Props.C58_main",
    "Verif.Props.C58_redundant",
    "Verif.Props.C58_recursive_out",
    "Verif.Props.C58_recursive_in",
    "Verif.Props.C58_recursive_inverse",
    "Verif.Props.C58_recursive_check"
   ],
   "note": "For types without redundant encodings in C58_inverse and C58_check; C58_redundant shows what the restriction excludes. Recursive types included (C58_recursive_*). With enc_len_estimable_override for the values that come back at all (C51_override_exact)."
  },
  {
   "property": "C59",
   "status": "proved",
   "theorems": [
    "Verif.Props.C59_calls",
    "Verif.Props.C59_bound",
    "Verif.Props.C59_value",
    "Verif.Props.C59_no_limit",
    "Verif.Props.C59_no_limit_value"
   ],
   "note": ""
  },
  {
   "property": "C60",
   "status": "partial",
   "theorems": [
    "Verif.Props.C60_byteparser_partial",
    "Verif.Props.C60_memoparser_partial",
    "Verif.Props.C60_sliceparser",
    "Verif.Props.C60_byteparser_any",
    "Verif.Props.C60_memoparser_any"
   ],
   "note": "next and collect on all three parsers, and after any calls whatsoever on ByteParser (C60_byteparser_any) and MemoParser (C60_memoparser_any). Partial because the code deviates: after a wrapped request in a release build MemoParser may die printing its log instead of returning None (C02_log_dies); C60_memoparser_any says exactly when."
  },
  {
   "property": "C61",
   "status": "proved",
   "theorems": [
    "Verif.Props.C61_sequence",
    "Verif.Props.C61_whole",
    "Verif.Props.C61_leaf",
    "Verif.Props.C61_unit",
    "Verif.Props.C61_record",
    "Verif.Props.C61_list",
    "Verif.Props.C61_dynamic",
    "Verif.Props.C61_data",
    "Verif.Props.C61_padded",
    "Verif.Props.C61_transparent",
    "Verif.Props.C61_option",
    "Verif.Props.C61_option_glued",
    "Verif.Props.C61_option_alone",
    "Verif.Props.C61_recursive"
   ],
   "note": "Pieces recorded by a MemoBuilder for every schema; the two ways Option's tag can be recorded are both shown to occur."
  },
  {
   "property": "C62",
   "status": "proved",
   "theorems": [
    "Verif.Props.C62_metered",
    "Verif.Props.C62_metered_recursive",
    "Verif.Props.C62_linear",
    "Verif.Props.C62_linear_recursive",
    "Verif.Props.C62_grows",
    "Verif.Props.C62_constants"
   ],
   "note": "All types whose sizes fit usize, all builds, VPadded in release builds included; recursive families if recursion happens only after something has been read (without that decoding need not end: C52_unguarded_fails)."
  },
  {
   "property": "C63",
   "status": "proved",
   "theorems": [
    "Verif.Props.C63_parse",
    "Verif.Props.C63_values",
    "Verif.Props.C63_write",
    "Verif.Props.C63_sound_types",
    "Verif.Props.C63_recursive_parse",
    "Verif.Props.C63_recursive_values",
    "Verif.Props.C63_recursive_write",
    "Verif.Props.C63_recursive_sound_types",
    "Verif.Props.C63_sound",
    "Verif.Props.C63_unsound",
    "Verif.Props.C63_unsound_decode",
    "Verif.Props.C63_to_i32",
    "Verif.Props.C63_fails",
    "Verif.Props.C63_latent"
   ],
   "note": "Single integers, and codecs of all types, recursive ones included: where ranges are sound the feature changes nothing."
  },
  {
   "property": "C64",
   "status": "proved",
   "theorems": [
    "Verif.Props.C64_order",
    "Verif.Props.C64_nan",
    "Verif.Props.C64_exact",
    "Verif.Props.C64_ranged",
    "Verif.Props.C64_encoding",
    "Verif.Props.C64_round_trip",
    "Verif.Props.C64_near",
    "Verif.Props.C64_fails",
    "Verif.Props.C64_rules",
    "Verif.Props.C64_base",
    "Verif.Props.C64_recursive_order",
    "Verif.Props.C64_recursive_nan",
    "Verif.Props.C64_recursive_exact",
    "Verif.Props.C64_recursive_encoding",
    "Verif.Props.C64_recursive_near"
   ],
   "note": "laws for all types; C64_fails shows the limits named in the statement"
  },
  {
   "property": "C65",
   "status": "proved",
   "theorems": [
    "Verif.Props.C65_segments",
    "Verif.Props.C65_strict",
    "Verif.Props.C65_memo",
    "Verif.Props.C65_memo_order",
    "Verif.Props.C65_encode",
    "Verif.Props.C65_fails"
   ],
   "note": "all histories of builders"
  },
  {
   "property": "C66",
   "status": "partial",
   "theorems": [
    "Verif.Props.C66_slice",
    "Verif.Props.C66_cut_first_unchecked",
    "Verif.Props.C66_get_slice_partial",
    "Verif.Props.C66_get_slice_fails",
    "Verif.Props.C66_get_byte_partial",
    "Verif.Props.C66_get_byte_fails"
   ],
   "note": "VecBuffer::get_byte reads out of bounds at the length; get_slice if the sum wraps (release)"
  },
  {
   "property": "C67",
   "status": "proved",
   "theorems": [
    "Verif.Props.C67_linear",
    "Verif.Props.C67_linear_recursive",
    "Verif.Props.C67_decode",
    "Verif.Props.C67_grows",
    "Verif.Props.C67_constants"
   ],
   "note": ""
  },
  {
   "property": "C68",
   "status": "proved",
   "theorems": [
    "Verif.Props.C68_underlying",
    "Verif.Props.C68_number",
    "Verif.Props.C68_unique",
    "Verif.Props.C68_float"
   ],
   "note": "Integers (backer values, numbers) and floats; the error is determined by the documentation of BoundsError::restrict, and is unique."
  },
  {
   "property": "C69",
   "status": "partial",
   "theorems": [
    "Verif.Props.C69_fix_unsaturated",
    "Verif.Props.C69_lim_oversaturated",
    "Verif.Props.C69_accepted_partial",
    "Verif.Props.C69_fails",
    "Verif.Props.C69_estimate",
    "Verif.Props.C69_prefix_fails"
   ],
   "note": "Decoding refuses sequences of inadmissible length and what it accepts is what was encoded; encoding does not refuse them and the estimate of an unsaturated FixSeq is wrong (witnesses C69_fails, C69_prefix_fails; C69_estimate says exactly when it is right)."
  },
  {
   "property": "C70",
   "status": "partial",
   "theorems": [
    "Verif.Props.C70_same",
    "Verif.Props.C70_answers",
    "Verif.Props.C70_constructors",
    "Verif.Props.C70_decode",
    "Verif.Props.C70_guard",
    "Verif.Props.C70_large_fails",
    "Verif.Props.C70_room_fails",
    "Verif.Props.C70_unchecked"
   ],
   "note": "Proved where N elements fit into memory: N < 2^32 for arrays, at most isize::MAX bytes for vectors; beyond that decoding panics on every input (witnesses C70_large_fails and C70_room_fails)."
  },
  {
   "property": "C71",
   "status": "proved",
   "theorems": [
    "Verif.Props.C71_equal",
    "Verif.Props.C71_distinct",
    "Verif.Props.C71_hash_one",
    "Verif.Props.C71_borrow",
    "Verif.Props.C71_data",
    "Verif.Props.C71_repeated_fails",
    "Verif.Props.C71_memo_builder",
    "Verif.Props.C71_memo_runs",
    "Verif.Props.C71_hex_string",
    "Verif.Props.C71_leftover",
    "Verif.Props.C71_recursive"
   ],
   "note": "For types without floating-point numbers (the others have no Hash); inequality needs distinct tags in data! enums, C71_repeated_fails shows why. Also memo builders and buffers, hex strings and left-over states."
  },
  {
   "property": "C72",
   "status": "proved",
   "theorems": [
    "Verif.Props.C72_message",
    "Verif.Props.C72_alike",
    "Verif.Props.C72_tag",
    "Verif.Props.C72_tag_form",
    "Verif.Props.C72_hex_debug",
    "Verif.Props.C72_leftover",
    "Verif.Props.C72_decode",
    "Verif.Props.C72_lost"
   ],
   "note": "what messages do not show is exactly characterised (Alike, C72_alike) and exhibited (C72_lost)"
  },
  {
   "property": "C73",
   "status": "partial",
   "theorems": [
    "Verif.Props.C73_user_targets",
    "Verif.Props.C73_user_targets_recursive",
    "Verif.Props.C73_encode",
    "Verif.Props.C73_vec",
    "Verif.Props.C73_sink",
    "Verif.Props.C73_strict",
    "Verif.Props.C73_hex",
    "Verif.Props.C73_memo_partial",
    "Verif.Props.C73_memo_fails",
    "Verif.Props.C73_library"
   ],
   "note": "MemoBuilder's push_all(&[]) is not the same as no push: it opens an empty segment (witness C73_memo_fails); everything else holds for all targets."
  },
  {
   "property": "C74",
   "status": "proved",
   "theorems": [
    "Verif.Props.C74_checked",
    "Verif.Props.C74_user_parsers",
    "Verif.Props.C74_round_trip",
    "Verif.Props.C74_recursive"
   ],
   "note": "For the types of C09_partial (no VPadded in release builds), and for all types on all inputs on which a debug build does not panic (C74_checked); parsers are compared with the cursor of C01 on well-bracketed calls."
  },
  {
   "property": "C75",
   "status": "partial",
   "theorems": [
    "Verif.Props.C75_exact",
    "Verif.Props.C75_encodable",
    "Verif.Props.C75_override",
    "Verif.Props.C75_length",
    "Verif.Props.C75_builds",
    "Verif.Props.C75_decoded_partial",
    "Verif.Props.C75_decoded_fails",
    "Verif.Props.C75_estimate_fails",
    "Verif.Props.C75_identifies",
    "Verif.Props.C75_texts",
    "Verif.Props.C75_recursive_unrolls",
    "Verif.Props.C75_recursive_unfoldings",
    "Verif.Props.C75_recursive_exact",
    "Verif.Props.C75_recursive_encodable",
    "Verif.Props.C75_recursive_override",
    "Verif.Props.C75_recursive_builds",
    "Verif.Props.C75_recursive_identifies",
    "Verif.Props.C75_recursive_decoded_partial"
   ],
   "note": "exact for all types, recursive ones included, and all values and builds; decoded text under too short a prefix is a proved exception (C75_decoded_fails)"
  },
  {
   "property": "C76",
   "status": "partial",
   "theorems": [
    "Verif.Props.C76_parse",
    "Verif.Props.C76_try_decode",
    "Verif.Props.C76_open_partial",
    "Verif.Props.C76_stream",
    "Verif.Props.C76_recursive",
    "Verif.Props.C76_fails"
   ],
   "note": "all types except those with VPadded outside of Dynamic, for which it fails (C76_fails)"
  },
  {
   "property": "C77",
   "status": "proved",
   "theorems": [
    "Verif.Props.C77_calls",
    "Verif.Props.C77_parse",
    "Verif.Props.C77_cleanup",
    "Verif.Props.C77_decode",
    "Verif.Props.C77_recursive",
    "Verif.Props.C77_write",
    "Verif.Props.C77_write_recursive",
    "Verif.Props.C77_differs"
   ],
   "note": "Any state, any arguments, any input length; C77_differs shows that the builds do differ."
  },
  {
   "property": "C78",
   "status": "proved",
   "theorems": [
    "Verif.Props.C78_padding",
    "Verif.Props.C78_estimates",
    "Verif.Props.C78_complete",
    "Verif.Props.C78_hex",
    "Verif.Props.C78_recursive"
   ],
   "note": "Completeness and padding checks: sizes in types are usize constants (sized)."
  },
  {
   "property": "C79",
   "status": "proved",
   "theorems": [
    "Verif.Props.C79_write",
    "Verif.Props.C79_parse",
    "Verif.Props.C79_decode",
    "Verif.Props.C79_old",
    "Verif.Props.C79_new",
    "Verif.Props.C79_distinct",
    "Verif.Props.C79_recursive",
    "Verif.Props.C79_minimum"
   ],
   "note": "all types, recursive ones included; what is not widening: C79_minimum"
  },
  {
   "property": "C80",
   "status": "proved",
   "theorems": [
    "Verif.Props.C80_encode",
    "Verif.Props.C80_override_fails",
    "Verif.Props.C80_parse",
    "Verif.Props.C80_decode",
    "Verif.Props.C80_reject",
    "Verif.Props.C80_recursive",
    "Verif.Props.C80_vpadded_fails"
   ],
   "note": "all listed rearrangements, recursive types included; with enc_len_estimable_override unfilled FixSeqs are excluded (C80_override_fails)"
  },
  {
   "property": "C81",
   "status": "proved",
   "theorems": [
    "Verif.Props.C81_replace",
    "Verif.Props.C81_resize",
    "Verif.Props.C81_overwrite",
    "Verif.Props.C81_edit",
    "Verif.Props.C81_prefix_fails",
    "Verif.Props.C81_recursive_replace",
    "Verif.Props.C81_recursive_overwrite"
   ],
   "note": "For all types, recursive ones included, all choices of parts (holes of a schema), all values before and after, all features (with estimated lengths: for values whose estimates are right). C81_prefix_fails shows why lengths must stay under a prefix."
  },
  {
   "property": "C82",
   "status": "partial",
   "theorems": [
    "Verif.Props.C82_checked_partial",
    "Verif.Props.C82_checked_try_decode_partial",
    "Verif.Props.C82_checked_recursive_partial",
    "Verif.Props.C82_fault_partial",
    "Verif.Props.C82_try_decode_partial",
    "Verif.Props.C82_never",
    "Verif.Props.C82_recursive_partial",
    "Verif.Props.C82_wrapped"
   ],
   "note": "All types without VPadded (and in debug builds with it), all types in release builds on inputs on which a debug build does not panic (C82_checked_partial); arrays that would not fit in memory are excluded. In release builds VPadded can report a window of usize::MAX bytes that nothing asked for: C82_wrapped."
  },
  {
   "property": "C83",
   "status": "proved",
   "theorems": [
    "Verif.Props.C83_containers",
    "Verif.Props.C83_read",
    "Verif.Props.C83_same",
    "Verif.Props.C83_contract",
    "Verif.Props.C83_array",
    "Verif.Props.C83_documented_fails"
   ],
   "note": "Containers of tags and user-written validators. The documentation of has_valid is inverted: C83_documented_fails."
  },
  {
   "property": "C84",
   "status": "proved",
   "theorems": [
    "Verif.Props.C84_chain",
    "Verif.Props.C84_text",
    "Verif.Props.C84_texts",
    "Verif.Props.C84_slice_fails",
    "Verif.Props.C84_convert",
    "Verif.Props.C84_plain",
    "Verif.Props.C84_convertible"
   ],
   "note": "All error types of the library. The causes of boxed errors (of other crates) are not followed."
  },
  {
   "property": "C85",
   "status": "partial",
   "theorems": [
    "Verif.Props.C85_checked_partial",
    "Verif.Props.C85_checked_go_on_partial",
    "Verif.Props.C85_checked_recursive_partial",
    "Verif.Props.C85_partial",
    "Verif.Props.C85_windowless_partial",
    "Verif.Props.C85_go_on_partial",
    "Verif.Props.C85_attempts_partial",
    "Verif.Props.C85_recursive_partial",
    "Verif.Props.C85_no_rollback",
    "Verif.Props.C85_left_open",
    "Verif.Props.C85_left_over"
   ],
   "note": "Not for VPadded that finds too few bytes, or arrays of more than isize::MAX + 1 bytes, in release builds on ByteParser and MemoParser (C57_fails, C85_checked_partial). Failed decodings are not undone and leave windows open (C85_no_rollback, C85_left_open)."
  },
  {
   "property": "C86",
   "status": "partial",
   "theorems": [
    "Verif.Props.C86_round_trip_partial",
    "Verif.Props.C86_exact",
    "Verif.Props.C86_zero",
    "Verif.Props.C86_ranges",
    "Verif.Props.C86_fix_fails",
    "Verif.Props.C86_ranged_fails",
    "Verif.Props.C86_recursive_value",
    "Verif.Props.C86_recursive_round_trip_partial",
    "Verif.Props.C86_recursive_zero",
    "Verif.Props.C86_recursive_endless"
   ],
   "note": "All types with a default, recursive ones included, that meet a necessary and sufficient condition on ranges and fixed lengths; fails for FixSeq and ranges above zero."
  },
  {
   "property": "C87",
   "status": "proved",
   "theorems": [
    "Verif.Props.C87_decoded",
    "Verif.Props.C87_encodable",
    "Verif.Props.C87_announced",
    "Verif.Props.C87_round_trip",
    "Verif.Props.C87_needed",
    "Verif.Props.C87_announced_round_trip",
    "Verif.Props.C87_announced_needed",
    "Verif.Props.C87_recursive",
    "Verif.Props.C87_unchecked",
    "Verif.Props.C87_broken_promise"
   ],
   "note": "all features: lengths as enc_len gives them in C87_announced*; C87_encodable, C87_round_trip and C87_needed have the true lengths, with estimates not trusted"
  },
  {
   "property": "C88",
   "status": "partial",
   "theorems": [
    "Verif.Props.C88_encode",
    "Verif.Props.C88_decode_partial",
    "Verif.Props.C88_estimate",
    "Verif.Props.C88_fixed",
    "Verif.Props.C88_fixed_estimate",
    "Verif.Props.C88_rejects",
    "Verif.Props.C88_capture_fails",
    "Verif.Props.C88_one_length",
    "Verif.Props.C88_implements",
    "Verif.Props.C88_payload"
   ],
   "note": "Decode cannot be derived for a struct with a field whose type names a type called P, because the generated function has a type parameter of that name (C88_capture_fails). Everything else is proved for all declarations."
  },
  {
   "property": "C89",
   "status": "proved",
   "theorems": [
    "Verif.Props.C89_debug",
    "Verif.Props.C89_release",
    "Verif.Props.C89_write",
    "Verif.Props.C89_to_bytes",
    "Verif.Props.C89_estimate",
    "Verif.Props.C89_recursive",
    "Verif.Props.C89_recursive_to_bytes",
    "Verif.Props.C89_recursive_estimate",
    "Verif.Props.C89_wraps",
    "Verif.Props.C89_bits_fails"
   ],
   "note": "write_to and estimates with counts in usize (of 32 or 64 bits), for all types, recursive ones included, all values and targets."
  },
  {
   "property": "C90",
   "status": "proved",
   "theorems": [
    "Verif.Props.C90_ranged",
    "Verif.Props.C90_ranged_distinct",
    "Verif.Props.C90_numbers",
    "Verif.Props.C90_numbers_distinct",
    "Verif.Props.C90_display",
    "Verif.Props.C90_distinct",
    "Verif.Props.C90_hex",
    "Verif.Props.C90_negative"
   ],
   "note": "Format specifications of the standard library are modelled (pad, pad_integral); Display of doubles is not."
  },
  {
   "property": "C91",
   "status": "proved",
   "theorems": [
    "Verif.Props.C91_byteparser",
    "Verif.Props.C91_memoparser",
    "Verif.Props.C91_sliceparser",
    "Verif.Props.C91_same_future",
    "Verif.Props.C91_fresh",
    "Verif.Props.C91_segments",
    "Verif.Props.C91_spans",
    "Verif.Props.C91_memo_builder",
    "Verif.Props.C91_memo_buffer",
    "Verif.Props.C91_open_not_shown"
   ],
   "note": "All states and all sequences of operations. C91_open_not_shown: the text of a MemoBuilder does not tell whether the last run is still open."
  },
  {
   "property": "C92",
   "status": "proved",
   "theorems": [
    "Verif.Props.C92_parse",
    "Verif.Props.C92_iff",
    "Verif.Props.C92_determined",
    "Verif.Props.C92_invariant",
    "Verif.Props.C92_decode",
    "Verif.Props.C92_prints",
    "Verif.Props.C92_tag"
   ],
   "note": "All parse, cleanup and decode errors, in every state; only errors that hold floating-point numbers with the same text, or boxed errors, may print alike though they differ."
  },
  {
   "property": "C93",
   "status": "partial",
   "theorems": [
    "Verif.Props.C93_counter",
    "Verif.Props.C93_counter_recursive",
    "Verif.Props.C93_gauge",
    "Verif.Props.C93_dynamic",
    "Verif.Props.C93_linear",
    "Verif.Props.C93_override",
    "Verif.Props.C93_factor",
    "Verif.Props.C93_recursive",
    "Verif.Props.C93_override_recursive",
    "Verif.Props.C93_sharp",
    "Verif.Props.C93_exponential",
    "Verif.Props.C93_quadratic"
   ],
   "note": "Linear work fails for recursive types (C93_sharp, C93_exponential), since Dynamic writes its contents twice, and with enc_len_estimable_override estimates them at every level (C93_quadratic); exact bounds for all types are proved (C93_linear, C93_recursive, C93_override, C93_override_recursive)."
  },
  {
   "property": "C94",
   "status": "proved",
   "theorems": [
    "Verif.Props.C94_recovery",
    "Verif.Props.C94_fallback",
    "Verif.Props.C94_recovery_types",
    "Verif.Props.C94_recovery_dynamic_fails",
    "Verif.Props.C94_recursive_types",
    "Verif.Props.C94_recursive",
    "Verif.Props.C94_recursive_decoders",
    "Verif.Props.C94_recursion",
    "Verif.Props.C94_parsers_agree",
    "Verif.Props.C94_errors",
    "Verif.Props.C94_release",
    "Verif.Props.C94_no_ub",
    "Verif.Props.C94_reads_prefix",
    "Verif.Props.C94_user_parsers",
    "Verif.Props.C94_methods",
    "Verif.Props.C94_library_types",
    "Verif.Props.C94_constructors",
    "Verif.Props.C94_derived",
    "Verif.Props.C94_targets",
    "Verif.Props.C94_user_targets",
    "Verif.Props.C94_library_encoders",
    "Verif.Props.C94_constructors_encode",
    "Verif.Props.C94_derived_encode",
    "Verif.Props.C94_round_trip",
    "Verif.Props.C94_try_decode",
    "Verif.Props.C94_injective",
    "Verif.Props.C94_one_parser",
    "Verif.Props.C94_schema",
    "Verif.Props.C94_compose",
    "Verif.Props.C94_compose_nonempty",
    "Verif.Props.C94_compose_data",
    "Verif.Props.C94_compose_record",
    "Verif.Props.C94_prefix",
    "Verif.Props.C94_pair",
    "Verif.Props.C94_my_type_elem",
    "Verif.Props.C94_my_type",
    "Verif.Props.C94_documented",
    "Verif.Props.C94_nonempty_needed",
    "Verif.Props.C94_recovery_fails"
   ],
   "note": "Decoders of the form Written, recursive ones included (C94_recursive_decoders, C94_recursive_types, C94_recursion), also if they catch errors of code without windows (C94_recovery, C94_fallback); encoders of the form Pushed; recursive types keep the contract (C94_recursive); agreement of parsers around VPadded in debug builds (C09_fails). Outside of the class: errors caught within windows (C94_recovery_fails, C94_recovery_dynamic_fails)."
  },
  {
   "property": "C95",
   "status": "partial",
   "theorems": [
    "Verif.Props.C95_position_partial",
    "Verif.Props.C95_slice",
    "Verif.Props.C95_unread",
    "Verif.Props.C95_unread_value",
    "Verif.Props.C95_try_decode_partial",
    "Verif.Props.C95_vpadded_partial",
    "Verif.Props.C95_recursive_vpadded_partial",
    "Verif.Props.C95_bytes_left_exact",
    "Verif.Props.C95_bytes_left_fails",
    "Verif.Props.C95_any_partial",
    "Verif.Props.C95_between"
   ],
   "note": "Positions, window ends and agreement of the parsers are exact; for types with VPadded in release builds where a debug build does not panic on the input. Fails for the number of bytes said to be left in the buffer (C95_bytes_left_fails), which is characterised exactly (C95_bytes_left_exact). Decodings that begin after any calls: C95_any_partial, C95_between (only the bytes between beginning and end matter)."
  },
  {
   "property": "C96",
   "status": "proved",
   "theorems": [
    "Verif.Props.C96_decodes",
    "Verif.Props.C96_try_decode",
    "Verif.Props.C96_parse",
    "Verif.Props.C96_encode",
    "Verif.Props.C96_override_fails",
    "Verif.Props.C96_recursive",
    "Verif.Props.C96_recursive_encode"
   ],
   "note": "Sealed s s' relates a type to one that leaves parts under Dynamic or VPadded undecoded. C96_decodes: exact equivalence of decoding at once and in two steps (Whole: the bytes of a part decode to its value and nothing is left); C96_try_decode for whole inputs, C96_parse from any state of a parser, C96_encode for encoding (with the estimate feature where estimates are right; C96_override_fails shows that this is needed), C96_recursive and C96_recursive_encode for recursive families."
  },
  {
   "property": "C97",
   "status": "proved",
   "theorems": [
    "Verif.Props.C97_room",
    "Verif.Props.C97_write",
    "Verif.Props.C97_parse",
    "Verif.Props.C97_values",
    "Verif.Props.C97_decodes",
    "Verif.Props.C97_no_room",
    "Verif.Props.C97_reserved",
    "Verif.Props.C97_recursive_parse",
    "Verif.Props.C97_recursive_values",
    "Verif.Props.C97_recursive_room",
    "Verif.Props.C97_recursive_reserved",
    "Verif.Props.C97_amplifies"
   ],
   "note": "All types and recursive families; element sizes in memory are a parameter of the theorems (Layout). C97_amplifies shows that the linear bound on reserved memory cannot be improved to one independent of the bound N."
  },
  {
   "property": "C98",
   "status": "partial",
   "theorems": [
    "Verif.Props.C98_sorted_partial",
    "Verif.Props.C98_followed_partial",
    "Verif.Props.C98_builders_partial",
    "Verif.Props.C98_recursive_partial",
    "Verif.Props.C98_hex",
    "Verif.Props.C98_int_exact",
    "Verif.Props.C98_f64_exact",
    "Verif.Props.C98_tags_exact",
    "Verif.Props.C98_fails"
   ],
   "note": "Holds for types without arbitrary-precision numbers, and without integers and doubles of both signs, whose data! tags are in the order of declaration and whose parts of open length come last (C98_sorted_partial, C98_followed_partial, C98_builders_partial, C98_recursive_partial); for ranged integers, doubles and enum tags this condition is exact (C98_int_exact, C98_f64_exact, C98_tags_exact); the texts always sort like the bytes (C98_hex). C98_fails gives a witness for each excluded case."
  },
  {
   "property": "C99",
   "status": "proved",
   "theorems": [
    "Verif.Props.C99_read",
    "Verif.Props.C99_written",
    "Verif.Props.C99_override_fails",
    "Verif.Props.C99_occurs",
    "Verif.Props.C99_accepted",
    "Verif.Props.C99_least",
    "Verif.Props.C99_most",
    "Verif.Props.C99_decode",
    "Verif.Props.C99_recursive"
   ],
   "note": ""
  },
  {
   "property": "C100",
   "status": "partial",
   "theorems": [
    "Verif.Props.C100_any_types",
    "Verif.Props.C100_any_types_written",
    "Verif.Props.C100_any_types_round_trip",
    "Verif.Props.C100_any_types_unique",
    "Verif.Props.C100_any_types_cut",
    "Verif.Props.C100_any_types_cut_library",
    "Verif.Props.C100_any_types_input",
    "Verif.Props.C100_any_types_progress",
    "Verif.Props.C100_any_types_rewrite",
    "Verif.Props.C100_any_types_rewrite_library",
    "Verif.Props.C100_writes",
    "Verif.Props.C100_writes_vec",
    "Verif.Props.C100_round_trip",
    "Verif.Props.C100_unique",
    "Verif.Props.C100_cut",
    "Verif.Props.C100_progress",
    "Verif.Props.C100_any_input_partial",
    "Verif.Props.C100_rewrite",
    "Verif.Props.C100_fails",
    "Verif.Props.C100_release_exact",
    "Verif.Props.C100_release_values",
    "Verif.Props.C100_release_ub",
    "Verif.Props.C100_release_safe_partial",
    "Verif.Props.C100_release_byte_memo"
   ],
   "note": "All of it holds if every message but the last one delimits itself, also for recursive and hand-written types (C100_any_types, C100_any_types_cut); otherwise a message swallows the next ones (C100_fails). For VPadded outside of Dynamic in release builds the parsers agree on values (C100_release_values) and end exactly as C100_release_exact says, which need not be alike. Missing: arrays of more than isize::MAX + 1 bytes in release builds."
  },
  {
   "property": "C101",
   "status": "proved",
   "theorems": [
    "Verif.Props.C101_step",
    "Verif.Props.C101_path",
    "Verif.Props.C101_convert",
    "Verif.Props.C101_confluent",
    "Verif.Props.C101_back",
    "Verif.Props.C101_text_fails"
   ],
   "note": "Any chain of conversions keeps the bytes; failure characterised exactly. Texts compared up to case (C101_text_fails)."
  },
  {
   "property": "C102",
   "status": "proved",
   "theorems": [
    "Verif.Props.C102_unique",
    "Verif.Props.C102_step",
    "Verif.Props.C102_path",
    "Verif.Props.C102_confluent",
    "Verif.Props.C102_back",
    "Verif.Props.C102_modify",
    "Verif.Props.C102_observers"
   ],
   "note": "Any nesting and any chain of calls. References and boxes are modelled as the values they refer to."
  },
  {
   "property": "C103",
   "status": "proved",
   "theorems": [
    "Verif.Props.C103_parse_error",
    "Verif.Props.C103_parse_error_iff",
    "Verif.Props.C103_decode_error",
    "Verif.Props.C103_decode_error_breaks",
    "Verif.Props.C103_same",
    "Verif.Props.C103_panics",
    "Verif.Props.C103_identifies",
    "Verif.Props.C103_layout",
    "Verif.Props.C103_sequence",
    "Verif.Props.C103_bytes",
    "Verif.Props.C103_numbers",
    "Verif.Props.C103_nullable",
    "Verif.Props.C103_record",
    "Verif.Props.C103_one_line",
    "Verif.Props.C103_recursive_unrolls",
    "Verif.Props.C103_recursive_same",
    "Verif.Props.C103_recursive_panics",
    "Verif.Props.C103_recursive_identifies",
    "Verif.Props.C103_states",
    "Verif.Props.C103_parser_states"
   ],
   "note": "Names in the program, and what the standard library prints for strings and doubles, are arbitrary texts that are not empty, hold no line break, and do not begin with a blank or a closing bracket. A HexConvError quotes its text unescaped, so C103_decode_error asks for text without line breaks; C103_decode_error_breaks shows that this is needed."
  }
 ]
}