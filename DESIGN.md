# DESIGN

Formal model in Lean 4 of the Rust crate `tedium` (package `tezos-data-model`) found in `/repo`, and proofs of the
properties listed in `properties.jsonl`.  The model is a hand translation, function by function; every definition
cites the file and lines it was read from and states its simplifications.  Nothing is executed or extracted from the
Rust sources.

Contents: 1 architecture, 2 trusted base and axioms per theorem, 3 what is modelled and what is not, 4 where the code
disagrees with the properties, 5 property by property, 6 testing the theorems.

## 1. Architecture

### 1.1 Language of the model (`Basic`, `Errors`)

* `Out σ ε α = ok a s | err e s | panic | ub | diverge`.  The state is kept on `err` because `&mut self` outlives an
  `Err` return.  `panic` is any Rust panic (assert, `expect`, index out of range, overflow in debug builds), `ub` an
  unchecked read out of bounds, `diverge` a loop that does not end.
* `M σ ε α := σ → Out σ ε α` is the state monad in which parser code is transcribed.
* `usize` is `Nat` with explicit overflow behaviour: `Profile.debug` panics, `Profile.release` wraps, modulo `usizeMod`, which is
  `2 ^ 32` or `2 ^ 64`: `usizeBits` is an opaque constant of which nothing is known but that it is 32 or 64, so every theorem is
  proved for both widths at once.
* Loops without a static bound use `iterM`: fuel-indexed iteration, `diverge` iff no fuel suffices.
* `Cfg` collects what is chosen at compile time: build profile and the Cargo features `enc_len_estimable_override`,
  `check_padding`, `check_complete_parse`.  Theorems are for all settings unless they say otherwise.

### 1.2 Transcription

* Parsers: `ParserOps σ` is the trait (required methods are fields, provided methods are functions of them).
  `ByteParser`, `MemoParser` (with `Index`, `FrameStack`, `ContextOffset`, `VecBuffer`), `SliceParser` (with `ViewStack`,
  `SliceBuffer`).  `Cleanup` has the three `cleanup` methods and `LeftoverState`; `Munch` has `dump_state`.
* Targets: `TargetOps τ` with `Vec<u8>`, `ByteCounter`/`Sink`, `StrictBuilder`, `MemoBuilder`, `HexString`; `Builder` has the
  builder traits; `SplitVec` the segmented buffer.
* Codecs: `Codec α` packs `write_to`, `parse`, `Estimable` (known and value-dependent part), `enc_len`.  `Codec.Prim` and
  `Codec.Comb` have one definition per `impl`; type constructors are functions on codecs.  `parse` is polymorphic in the
  parser, `write_to` in the target.
* `Schema` is the deep embedding of the type language (mutual with `Variants` for `data!` and `Fields` for records):
  `Schema.Val`, `Schema.codec cfg`.  "For every type built from the crate's combinators" is an induction over it.
* `Recursive`, `RecCodec`, `RecCompare`, `RecDebug`, `RecDefault`: families of mutually recursive types, their codecs, comparisons, hashes, texts and default values.  `Schema.hole i` mentions the `i`-th type (in Rust behind
  `AutoBox`).  Values are values of finite unfoldings, up to embedding into deeper ones; running the code is running
  the code of a deep enough unfolding (`diverge` if none returns).  C56 proves that this code satisfies the equations
  of the definitions, is the least solution, and agrees with every other solution wherever it returns.
* `Decode`: `try_decode`, `decode`, `decode_memo` and conversions of inputs to buffers.  `Hex`, `Fixed`, `RangedNum`, `RangeCheck`, `Compare`, `Hash`, `BoundedSeq`,
  `Storage` (bounded sequences over `Vec` and over `ArrayVec`), `StoredCodec` and `RecStored` (the codecs of all types with that storage),
  `Enums`, `Convert`, `Conversions`, `Wrappers`: constructors, conversions and comparison functions outside the codec traits.
* `Effort`: the encoding side with counters of pushes and of estimates (`Schema.costed`, `Schema.gauge`; recursive types: `RecEffort`).
* `Usize`: the encoding side once more, with counts of type `usize` (`Schema.machine`; recursive types: `RecUsize`).
* `HandWritten`: `parse` and `write_to` as users may write them (`Composed`, `Written`, `Pushed`), and the hand-written types of the crate's tests
  and documentation.
* `Derive`: the derive macros as functions from declarations to a syntax of generated code, and the meaning of that syntax.

### 1.3 Specifications (`Spec/*`), independent of the code

* `Spec.Cursor`: a parser is a windowed cursor – the readable bytes and what each enclosing scope still holds.
  `Spec.CursorExact`: what `ByteParser` and `MemoParser` answer for every argument, including windows larger than the buffer
  (`Cursor.answer`), and which requests leave `usize` (`Cursor.Overflows`, `Cursor.Fits`).
* `Spec.Decode`, `Spec.Format`, `Spec.Schema`: the wire format as pure functions on byte lists, `D α := Bytes → DecRes α`, with
  `DecRes = ok a rest | err e | panic | diverge | wild`.  `wild` means the specification makes no promise; it arises only
  from `VPadded` windows shorter than `N` and from requests above `isize::MAX + 1` bytes in release builds (`Spec.Tame` gives a static
  condition that excludes it; `Props.Checked` a condition on the input: a debug build does not panic).  `Spec.Ends`: types whose
  decoding comes back on every input.  `Spec.Fall`: how release builds end where the specification is `wild` (`Schema.fall`).
* `Spec.Laws`: what one can ask of an encoder/decoder pair (round trip for an allowed tail, locality, totality,
  canonicity, …).
* `Spec.Segments`, `Spec.Building`: segmented buffers as lists of segments.
* `Spec.Meter`: a parser with a counter of the calls made to it.
* `Spec.Patch`: values that agree outside of the holes of a schema, byte strings that agree outside of given blocks.
* `Spec.Refactor`: the rearrangements of a type that leave its messages alone, and which value of the one type is which of the other.
* `Spec.Shortfall`: the number of `N`s with value 0 in a value.
* `Spec.Surplus`: the bytes a value is estimated at but does not have, because a `FixSeq` is not full.
* `Spec.UserTypes`: what a user promises of `Encode`, `Decode`, `Estimable` written by hand (`Contract`).
* `Spec.Wider`: when a type is a later, wider version of another one, and what a value of the one is in the other.
* Small specifications that belong to one property stand next to it in `Props/*` (`ReadAs`, `FloatValue`, `FloatLe`, …).

### 1.4 Refinement layers (`Refine/*`)

1. `StepRefines`: every parser operation refines the cursor, in every reachable state (invariants in `Refine.Offset`);
   `Gives` (`Refine.Exact`): exact answers of `ByteParser` and `MemoParser`.
2. `Lawful P pan R`: the interface codecs rely on.  All three parsers are lawful.  `pan` says whether the parser panics on
   windows larger than the buffer (`ByteParser`, `MemoParser` in debug builds).
3. `Codec.Parses win c d`: over every lawful parser, `parse` refines the pure decoder `d`.  `Codec.Writes c e`: over every
   lawful target, `write_to` appends the encoding `e` and returns its length.  One lemma per codec (`Refine.Codec`); the
   lemmas for type constructors take arbitrary component codecs.
4. `Backend = byte | memo | slice`: observations for users.  `c.Decodes cfg v a rest` – each of the three parsers, in every state
   whose readable bytes are `v`, decodes `a` and leaves `rest`; similarly `Rejects`, `RejectsOrPanics`, `Panics`, `Diverges`.
   `Codec.On`/`spot` let combinator theorems assume of a component only its behaviour on the bytes in question.
5. `Closed P Q` (`Refine.Program`): a predicate on parser programs that holds of the parser calls decoders make and is kept by
   sequencing, loops and windows holds of the decoder of every schema.  Used for invariants that need no decoder
   specification.  `Schema.sound` (`Refine.Sound`): also where the specification is `wild`, a decoder that returns a value
   returns the one specified.  The only condition is that sizes are `usize`s (`Spec.Sized`).  `Wraps`, `Idle` (`Refine.Idle`): in a window that ends before the
   cursor nothing succeeds, and what is run there makes boundedly many calls.  `Sinks` (`Refine.Sinks`): what exactly every call does there; from it,
   how every decoder ends (`Lemmas.Fall`).  `Related P P' cfg cfg' Q` (`Refine.Related`): the same for
   relations between two builds of a decoder.  `Composed.locks` (`Refine.Located`): a decoder run with a parser that answers as
   `Cursor.answer` says, next to the same decoder run with `SliceParser`, error values included; `Composed.twins` (`Refine.Twins`):
   two runs over inputs that agree up to where the first one stops.
6. `Lemmas/*`: the laws of `Spec.Laws` for all pure encoders/decoders, then by induction for all schemas, then in the
   limit for recursive types (`Codec.Sim`, `Codec.Tends`).

`Props/*` contains the property theorems only (with the specifications they need and `example`s that instantiate
their hypotheses).

## 2. Trusted base

* The Lean 4.33.0 kernel.  No axioms are added; no `sorry`, `native_decide`, `bv_decide`.  `decide +kernel` is used on closed
  finite statements (kernel reduction, no compiler).
* The manual translation Rust → Lean (cited by file and lines).
* The semantics of standard library and `num-bigint` functions the code calls, in `Std`: `to_be_bytes`/`from_be_bytes`,
  `u8::from_str_radix`, `String::from_utf8_lossy`, `str::from_utf8`, `BigUint::{to,from}_radix_le`, `bits`, `Vec`/slice/iterator
  operations, IEEE comparison of floats on bit patterns, `f32 as f64`; of the operations of the crate `arrayvec` in `Storage`; of what the standard library, `#[derive(Hash)]` and `num-bigint` feed to a hasher in `Hash`; and of what `#[derive(Debug)]` and the standard library print in `Debug` and `Pretty` (text and doubles print as arbitrary texts); and of `Formatter::pad`, `pad_integral` and the integer formats of the standard library in `Display`.
* Conversions of ranged integers from and to `usize` and `isize` are those of the integer type of the same width.
* `usize` has 32 or 64 bits (`usizeBits`, see 1.1).  Buffers are at most `isize::MAX` bytes long (an invariant of Rust allocations; hypothesis
  `buf.length ≤ isizeMax` where it matters).  On the encoding side byte counts are `Nat`; C89
  proves that the additions in `usize` that the code makes give the same, unless `usizeMod` bytes or more
  are counted, or – on 32-bit targets – a number of `2 ^ 32` bits or more is estimated.  That the constants `KNOWN` are less than
  `usizeMod` is assumed.
* That user-defined types are schema types up to renaming.  For derived code this is C88, which relies on the meaning that
  `Derive` gives to the few forms of Rust code the macros generate; the code of `cstyle!` and `data!` is modelled as generated
  for lists of arms.

Axioms per property theorem, as reported by `#print axioms`:

* none (10): C19_limits, C20_encode, C27_push, C29_variants, C29_tagval, C39_append_drains, C40_calls_not_separated, C65_fails, C73_memo_fails, C79_distinct.
* `propext` (34): C03_sliceparser_is_windowed_cursor, C03_slice_closed, C05_sliceparser_failed_op_keeps_state, C24_construct, C24_access, C27_constructors, C27_set, C33_fails, C34_fails, C35_memo_reached, C38_unfreeze_unbalances, C41_leftover, C41_append_drains, C44_sliceparser_skip_exactly, C44_skip_of_lawful, C50_fails, C66_cut_first_unchecked, C73_vec, C73_sink, C73_strict, C73_hex, C84_convert, C84_plain, C88_payload, C94_derived_encode, C94_injective, C101_text_fails, C102_unique, C102_step, C102_path, C102_confluent, C102_back, C102_modify, C102_observers.
* `Quot.sound` (1): C83_array.
* `Quot.sound`, `propext` (117): C01_cursor_at, C01_cursor_reads_input_in_order, C01_answers_length, C01_fits, C01_debug_oversized_window_panics, C01_release_oversized_window_misreports, C02_memoparser_eq_byteparser, C02_log_dies, C03_slice_closes_root, C03_slice_loses_residue, C03_slice_test_target_on_root, C04_sliceparser_no_ub, C04_release_wrapping_request_is_ub, C04_release_wrapping_window_rewinds, C05_byteparser_failed_op_keeps_state, C05_memoparser_failed_op_keeps_state, C05_byteparser_failed_consume_arr_keeps_state, C05_memoparser_failed_consume_arr_keeps_state, C05_sliceparser_failed_consume_arr_keeps_state, C06_sliceparser_enforce_target_partial, C07_sliceparser_remainder, C15_dichotomy, C17_encode, C18_encode, C19_too_long_debug, C19_cases, C20_short_release, C21_encode, C23_encode, C24_encode, C24_no_ub, C24_from_str, C24_lower_hex, C27_lim_bound, C28_encode, C28_cases, C28_api, C29_encode, C30_encode, C30_decode, C30_field_error, C30_roundtrip, C32_f32_exact, C32_encode, C33_to_hex, C33_macro, C36_overrides, C38_span_count, C40_memo_builder, C40_strict_builder, C42_collect_partial, C42_collect_loses, C42_extend_loses, C42_collect_fails, C44_release_wraps, C44_byteparser_skip_any, C44_memoparser_skip_any, C55_skip_exactly_garbles, C63_fails, C65_strict, C65_memo, C66_slice, C66_get_slice_partial, C66_get_slice_fails, C66_get_byte_partial, C66_get_byte_fails, C68_unique, C70_same, C70_answers, C70_constructors, C70_guard, C71_borrow, C71_data, C71_repeated_fails, C72_tag, C72_tag_form, C72_hex_debug, C72_leftover, C72_lost, C73_memo_partial, C73_library, C77_calls, C82_never, C83_containers, C83_same, C83_contract, C84_text, C84_texts, C84_slice_fails, C84_convertible, C88_one_length, C88_implements, C91_byteparser, C91_memoparser, C91_sliceparser, C91_same_future, C91_fresh, C91_spans, C91_memo_builder, C91_memo_buffer, C91_open_not_shown, C92_parse, C92_iff, C92_determined, C92_invariant, C92_decode, C92_prints, C92_tag, C94_compose_record, C98_hex, C100_any_types_written, C100_any_types_rewrite, C103_parse_error, C103_parse_error_iff, C103_decode_error, C103_states, C103_parser_states.
* `Classical.choice`, `Quot.sound`, `propext` (668): C01_byteparser_exact, C01_byteparser_is_windowed_cursor_partial, C01_answers_are_the_cursors, C01_debug_panics, C02_same_leftover, C02_memoparser_same_trace, C03_sliceparser_agrees_with_byteparser_partial, C03_sliceparser_vs_byteparser, C04_byteparser_no_ub_partial, C04_memoparser_no_ub_partial, C04_release_overflowing_request_is_ub, C04_byteparser_exact, C04_memoparser_exact, C06_byteparser_enforce_target_partial, C06_memoparser_enforce_target_partial, C06_byteparser_any, C06_memoparser_any, C07_byteparser_remainder, C07_memoparser_remainder, C07_byteparser_any, C07_byteparser_reads_any, C07_memoparser_reads_any, C08_byteparser_any, C08_memoparser_any, C08_memo_log_fails, C08_self_terminating_of_lawful, C08_byteparser_self_terminating_partial, C08_memoparser_self_terminating_partial, C08_sliceparser_self_terminating, C09_checked_partial, C09_checked_errors, C09_values, C09_partial, C09_errors, C09_fails, C09_vpadded_partial, C09_release_exact, C09_release_byte_memo, C09_release_slice, C10_int_encode, C10_types, C10_int_decode, C10_int_roundtrip, C10_int_short, C10_f64, C11_bool, C11_bool_reject, C11_bool_canonical, C12_N_roundtrip, C13_Z_roundtrip, C14_N_minimal, C14_Z_minimal, C14_N_shape, C14_Z_shape, C15_decode, C15_reject, C15_same, C16_Z_estimate, C16_N_estimate_partial, C16_N_estimate_fails_at_zero, C16_N_exact, C17_decode_none, C17_decode_some, C17_payload_error, C17_reject, C17_reject_empty, C17_roundtrip, C18_decode_none, C18_decode_some, C18_payload_error, C18_roundtrip, C18_collision, C19_encode, C19_decode, C19_residue, C19_payload_error, C19_too_long, C19_too_long_release, C19_prefix_range, C19_prefix_short, C19_roundtrip, C19_too_long_exact, C19_too_long_any, C20_decode, C20_residue, C20_payload_error, C20_short_debug, C20_short_release_exact, C20_short_release_memo, C21_decode, C21_reject, C21_short_partial, C21_payload_error, C21_roundtrip, C21_short_exact, C21_huge_fails, C22_bytes, C23_roundtrip, C23_total, C23_repair, C23_read, C23_valid_prefix, C23_lossy, C24_decode, C24_short, C24_utf8, C25_encode, C25_decode, C25_element_error, C25_roundtrip, C25_terminates, C25_diverges, C26_encode, C26_exact, C26_decode, C26_short, C26_element_error, C26_roundtrip, C26_terminates, C26_zero_width, C27_encode, C27_decode_bound, C27_decode, C27_element_error, C27_too_many, C27_roundtrip, C27_terminates, C27_fix_bound, C28_width, C28_decode, C28_roundtrip, C28_reject, C28_short, C28_exact, C29_width, C29_decode, C29_payload_error, C29_roundtrip, C29_reject, C29_short, C29_repeated, C30_greedy_field, C31_encode, C31_decode, C31_reject, C31_exact, C31_short, C31_to_i32, C31_from_i32, C31_unfit, C31_underlying, C31_try_from_partial, C31_try_from_fails, C31_try_from_low_partial, C31_try_from_exact, C32_f32, C32_decode, C32_reject, C32_exact, C32_nan, C32_constructors, C32_default, C33_bytes, C33_accepts, C33_roundtrip, C33_rejects_partial, C33_exact, C33_panics_iff, C34_exact, C34_equal, C34_different, C34_partial, C35_targets_agree, C36_agree, C36_panics, C36_override_partial, C36_override_fails, C36_override_exact, C36_override_all, C37_known_partial, C37_estimate_partial, C37_fails, C37_exact, C37_all, C37_no_surplus, C38_splitvec_balanced, C38_splitvec_span_iteration, C38_splitvec_forward_iteration, C38_span_lengths, C38_check_sum, C39_splitvec_is_list_of_segments, C39_concat_drains_other, C40_derived, C41_cleanup, C41_reached_partial, C41_slice, C41_is_empty_misses, C41_byteparser_any, C41_release_wrapped, C41_memoparser_any, C42_collect_any, C43_without, C43_with_partial, C43_same_value, C43_trailing, C43_errors, C43_slice_fails, C43_fails, C43_unit_checked, C43_unit_unchecked, C43_unit_decode, C43_decode, C43_text, C44_byteparser_skip_exactly_partial, C44_memoparser_skip_exactly_partial, C44_release_overflow, C44_fast_kv_search_of_lawful, C44_skip_dynamic, C44_skip_dynamic_short, C44_skip_dynamic_too_long, C44_skip_dynamic_range_panics, C44_skip_dynamic_is_decoding, C44_skip_dynamic_schema, C44_skip_dynamic_iff, C44_byteparser_any, C44_memoparser_any, C45_prefix_exact, C45_all_targets, C45_override_partial, C45_override_fails, C45_override_exact, C45_override_misread, C45_override_all, C46_checked_partial, C46_release_partial, C46_partial, C46_fails, C46_release_exact, C46_vpadded_release_partial, C46_release_slice_partial, C46_recursive_diverge_exact, C46_recursive_slice_partial, C46_panic_exact, C47_reencode_partial, C47_canonical, C47_text_fails, C47_nullable_fails, C48_override_fails, C48_injective_partial, C48_prefix_free_partial, C48_nullable_fails, C49_local, C49_self_delimiting, C49_bytes_not_local, C50_constants_partial, C50_positive, C51_override_exact, C51_override_fails, C51_round_trip_partial, C51_try_decode_partial, C51_nullable_fails, C52_override_exact, C52_values, C52_encode, C52_targets_agree, C52_estimate, C52_round_trip_partial, C52_injective_partial, C52_reencode_partial, C52_canonical, C52_local, C52_total, C52_unguarded_fails, C52_estimate_exact, C52_estimate_all, C53_length_prefix, C53_foretells, C53_override_exact, C53_override_all, C54_to_machine, C55_dump_partial, C55_dump_any, C56_values, C56_solves, C56_least, C56_unique, C57_checked_partial, C57_checked_recursive_partial, C57_exact, C57_vpadded_partial, C57_recursive_exact, C57_recursive_vpadded_partial, C57_slice, C57_debug, C57_entry_points, C57_release_partial, C57_only_rejected, C57_fails, C57_recursive, C57_recursive_release_partial, C58_out, C58_in, C58_inverse, C58_check, C58_main, C58_redundant, C58_recursive_out, C58_recursive_in, C58_recursive_inverse, C58_recursive_check, C59_calls, C59_bound, C59_value, C59_no_limit, C59_no_limit_value, C60_byteparser_partial, C60_memoparser_partial, C60_sliceparser, C60_byteparser_any, C60_memoparser_any, C61_sequence, C61_whole, C61_leaf, C61_unit, C61_record, C61_list, C61_dynamic, C61_data, C61_padded, C61_transparent, C61_option, C61_option_glued, C61_option_alone, C61_recursive, C62_metered, C62_metered_recursive, C62_linear, C62_linear_recursive, C62_grows, C62_constants, C63_parse, C63_values, C63_write, C63_sound_types, C63_recursive_parse, C63_recursive_values, C63_recursive_write, C63_recursive_sound_types, C63_sound, C63_unsound, C63_unsound_decode, C63_to_i32, C63_latent, C64_order, C64_nan, C64_exact, C64_ranged, C64_encoding, C64_round_trip, C64_near, C64_fails, C64_rules, C64_base, C64_recursive_order, C64_recursive_nan, C64_recursive_exact, C64_recursive_encoding, C64_recursive_near, C65_segments, C65_memo_order, C65_encode, C67_linear, C67_linear_recursive, C67_decode, C67_grows, C67_constants, C68_underlying, C68_number, C68_float, C69_fix_unsaturated, C69_lim_oversaturated, C69_accepted_partial, C69_fails, C69_estimate, C69_prefix_fails, C70_decode, C70_large_fails, C70_room_fails, C70_unchecked, C71_equal, C71_distinct, C71_hash_one, C71_memo_builder, C71_memo_runs, C71_hex_string, C71_leftover, C71_recursive, C72_message, C72_alike, C72_decode, C73_user_targets, C73_user_targets_recursive, C73_encode, C74_checked, C74_user_parsers, C74_round_trip, C74_recursive, C75_exact, C75_encodable, C75_override, C75_length, C75_builds, C75_decoded_partial, C75_decoded_fails, C75_estimate_fails, C75_identifies, C75_texts, C75_recursive_unrolls, C75_recursive_unfoldings, C75_recursive_exact, C75_recursive_encodable, C75_recursive_override, C75_recursive_builds, C75_recursive_identifies, C75_recursive_decoded_partial, C76_parse, C76_try_decode, C76_open_partial, C76_stream, C76_recursive, C76_fails, C77_parse, C77_cleanup, C77_decode, C77_recursive, C77_write, C77_write_recursive, C77_differs, C78_padding, C78_estimates, C78_complete, C78_hex, C78_recursive, C79_write, C79_parse, C79_decode, C79_old, C79_new, C79_recursive, C79_minimum, C80_encode, C80_override_fails, C80_parse, C80_decode, C80_reject, C80_recursive, C80_vpadded_fails, C81_replace, C81_resize, C81_overwrite, C81_edit, C81_prefix_fails, C81_recursive_replace, C81_recursive_overwrite, C82_checked_partial, C82_checked_try_decode_partial, C82_checked_recursive_partial, C82_fault_partial, C82_try_decode_partial, C82_recursive_partial, C82_wrapped, C83_read, C83_documented_fails, C84_chain, C85_checked_partial, C85_checked_go_on_partial, C85_checked_recursive_partial, C85_partial, C85_windowless_partial, C85_go_on_partial, C85_attempts_partial, C85_recursive_partial, C85_no_rollback, C85_left_open, C85_left_over, C86_round_trip_partial, C86_exact, C86_zero, C86_ranges, C86_fix_fails, C86_ranged_fails, C86_recursive_value, C86_recursive_round_trip_partial, C86_recursive_zero, C86_recursive_endless, C87_decoded, C87_encodable, C87_announced, C87_round_trip, C87_needed, C87_announced_round_trip, C87_announced_needed, C87_recursive, C87_unchecked, C87_broken_promise, C88_encode, C88_decode_partial, C88_estimate, C88_fixed, C88_fixed_estimate, C88_rejects, C88_capture_fails, C89_debug, C89_release, C89_write, C89_to_bytes, C89_estimate, C89_recursive, C89_recursive_to_bytes, C89_recursive_estimate, C89_wraps, C89_bits_fails, C90_ranged, C90_ranged_distinct, C90_numbers, C90_numbers_distinct, C90_display, C90_distinct, C90_hex, C90_negative, C91_segments, C93_counter, C93_counter_recursive, C93_gauge, C93_dynamic, C93_linear, C93_override, C93_factor, C93_recursive, C93_override_recursive, C93_sharp, C93_exponential, C93_quadratic, C94_recovery, C94_fallback, C94_recovery_types, C94_recovery_dynamic_fails, C94_recursive_types, C94_recursive, C94_recursive_decoders, C94_recursion, C94_parsers_agree, C94_errors, C94_release, C94_no_ub, C94_reads_prefix, C94_user_parsers, C94_methods, C94_library_types, C94_constructors, C94_derived, C94_targets, C94_user_targets, C94_library_encoders, C94_constructors_encode, C94_round_trip, C94_try_decode, C94_one_parser, C94_schema, C94_compose, C94_compose_nonempty, C94_compose_data, C94_prefix, C94_pair, C94_my_type_elem, C94_my_type, C94_documented, C94_nonempty_needed, C94_recovery_fails, C95_position_partial, C95_slice, C95_unread, C95_unread_value, C95_try_decode_partial, C95_vpadded_partial, C95_recursive_vpadded_partial, C95_bytes_left_exact, C95_bytes_left_fails, C95_any_partial, C95_between, C96_decodes, C96_try_decode, C96_parse, C96_encode, C96_override_fails, C96_recursive, C96_recursive_encode, C97_room, C97_write, C97_parse, C97_values, C97_decodes, C97_no_room, C97_reserved, C97_recursive_parse, C97_recursive_values, C97_recursive_room, C97_recursive_reserved, C97_amplifies, C98_sorted_partial, C98_followed_partial, C98_builders_partial, C98_recursive_partial, C98_int_exact, C98_f64_exact, C98_tags_exact, C98_fails, C99_read, C99_written, C99_override_fails, C99_occurs, C99_accepted, C99_least, C99_most, C99_decode, C99_recursive, C100_any_types, C100_any_types_round_trip, C100_any_types_unique, C100_any_types_cut, C100_any_types_cut_library, C100_any_types_input, C100_any_types_progress, C100_any_types_rewrite_library, C100_writes, C100_writes_vec, C100_round_trip, C100_unique, C100_cut, C100_progress, C100_any_input_partial, C100_rewrite, C100_fails, C100_release_exact, C100_release_values, C100_release_ub, C100_release_safe_partial, C100_release_byte_memo, C101_step, C101_path, C101_convert, C101_confluent, C101_back, C103_decode_error_breaks, C103_same, C103_panics, C103_identifies, C103_layout, C103_sequence, C103_bytes, C103_numbers, C103_nullable, C103_record, C103_one_line, C103_recursive_unrolls, C103_recursive_same, C103_recursive_panics, C103_recursive_identifies.

## 3. What is modelled

| source | modelled | left out |
| --- | --- | --- |
| `src/parse/mod.rs`, `parse/buffer.rs` | all methods of `Parser`, `ParserExt`, the three parsers, `cleanup`, `LeftoverState`, `dump_state`, buffer conversions and accessors, `Display` of `InvariantError`, `Debug` of `LeftoverState` and of the parsers (`StateText`), `Debug` of `InvariantError` (`ErrorDebug`) | – |
| `src/parse/error.rs` | all error values with their numbers, `source` and conversions (`ErrorSource`), tag validators (`Validator`), `Display` of all (`ErrorText`; `f64`, `Utf8Error`, `TryFromIntError`, boxed errors and type names print as arbitrary texts, an `f64` of sign, digits, point, `inf`, `NaN`), `Debug` of all (`ErrorDebug`) | causes of boxed errors |
| `src/internal/{offset,stack,view,splitvec}.rs` | everything; `Debug` for bytes (`StateText`) | `Debug` of iterators |
| `src/conv/{mod,len,target}.rs` | all trait methods including provided ones and the overriding implementations | the commented-out `io::Write` target |
| `src/prim.rs`, `src/zarith.rs`, `src/int.rs`, `src/float.rs` | codecs, estimates, constructors (also those that skip checks, `Unchecked`), conversions, constants, `Default`, `Debug` (`{:?}` in `Debug`, `{:#?}` in `Pretty`, of errors in `ErrorPretty`, of parsers and builders in `StatePretty`); feature `invalid_range_checking` for single integers (`RangeCheck`) and the codecs of all types (`CheckedCodec`, of recursive ones `RecChecked`); `Display`, `Binary`, `Octal`, `LowerHex`, `UpperHex` with all format flags (`Display`; `pad` and `pad_integral` of the standard library) | `Display` of floats |
| `src/schema.rs`, `src/dynamic.rs`, `src/adt.rs`, `src/fixed.rs`, `src/seq/*` | codecs, estimates, constructors, `Default`, `length_prefix`, bounded-sequence API, macros, `Debug` (`{:?}` in `Debug`, `{:#?}` in `Pretty`), `Display` and `LowerHex` (`Display`); conversions, views and iterators of `Bytes`, `FixedBytes` and `Sequence<u8>` (`Conversions`), accessors of the wrappers (`Wrappers`) | serde impls (they hand over the bytes) |
| `src/hexstring.rs` | conversions, views and iterators (`Conversions`), comparison, target, `io::Write`, input of decoding | – |
| `src/builder/*` | both builders, all methods | – |
| `src/autobox.rs` | the codec traits, recursive types, accessors (`Wrappers`) | – |
| `*_derive/src/lib.rs` | the macros as functions on declarations, the generated code | parsing and printing of tokens, the messages for unsupported items, attributes, constants that have the name of a field |
| `src/main.rs` | `check` | – |
| `benches/*` | – | benchmark programs |

Also left out: memory consumption other than the size of decoded values (C67) and what bounded sequences reserve (C97), allocation failure other than requests of more than `isize::MAX` bytes by them, running time other
than the number of parser calls (C62), of pushes and of estimates (C93), the size of stack frames (C59 bounds the depth of recursion), threads.

## 4. Where the code disagrees with the properties

Each item has a proved witness (theorem in parentheses) unless marked "by reading".

* Parsers
  * Opening a window larger than the buffer panics in debug builds and reports wrong numbers in release builds
    (C01_debug_oversized_window_panics, C01_release_oversized_window_misreports, C19_too_long_debug).
  * Every request whose end is no `usize` wraps in release builds: reads are out of bounds, windows open
    (C04_release_overflowing_request_is_ub, C07_byteparser_remainder, C04_release_wrapping_request_is_ub,
    C04_release_wrapping_window_rewinds); `skip_exactly` with such a request succeeds and moves backwards (C44_release_wraps).
  * Where a wrapped window ends before the cursor, `cleanup` reads out of bounds and `take_self_terminating` panics for want
    of memory (C41_byteparser_any, C08_byteparser_any, C41_release_wrapped).
  * `SliceParser` lets callers close its root scope, loses the residue when closing fails, and answers
    `test_target` with true on an exhausted root (C03_slice_closes_root, C03_slice_loses_residue, C03_slice_test_target_on_root).
  * `VecBuffer::get_byte` is safe to call and reads one byte past the end for `ix == len` (the assertion is `<=`);
    `VecBuffer::get_slice` does so in release builds if `ix + len` wraps (C66_get_byte_fails, C66_get_slice_fails).
  * When a window does not fit into the input, the error gives the length of the input less the size of the window as the number
    of bytes left, wrapped around in release builds (C95_bytes_left_fails, C95_bytes_left_exact).
  * A decoder that goes on after a failed `enforce_target` or a failed `Dynamic` depends on the parser (C94_recovery_fails, C94_recovery_dynamic_fails); after other errors it does not (C94_recovery).
  * `MemoParser::skip_exactly` is not logged, so `dump_state` shows wrong bytes (C55_skip_exactly_garbles).
  * `LeftoverState::is_empty` is false for a root view with nothing left; hence `SliceParser` never passes
    `check_complete_parse` (C41_is_empty_misses, C43_slice_fails).
  * A `u30` prefix out of range panics in `skip_dynamic` whereas decoding reports an error (C44_skip_dynamic_range_panics).
* Codecs
  * `VPadded` on windows shorter than `N`: panic in debug, undefined behaviour in release (C20_short_debug, C20_short_release,
    C09_fails, C46_fails); a truncated message with a `VPadded` can be taken for another value or be reported as invalid (C76_fails).
  * `Padded` with N near `usize::MAX`: the padding is not refused but panics in debug and is undefined in release (C21_huge_fails).
  * Sequences of elements with empty encodings do not end (C25_diverges); `FixSeq` of such elements cannot be decoded at
    the end of the input (C26_zero_width).
  * A `FixSeq` that is not full, or an overfull `LimSeq`, encodes without complaint though the documentation says that it is
    refused; decoding refuses the result (C69_fails).  The length estimate is that of a full `FixSeq`, so with
    `enc_len_estimable_override` the length prefix is wrong too (C69_prefix_fails).
  * `N` zero: the length estimate is 0 though one byte is written (C16_N_estimate_fails_at_zero); with
    `enc_len_estimable_override` this corrupts length prefixes (C36_override_fails, C45_override_fails),
    and a list can be read back shorter than it was written, without any error (C45_override_misread, C51_override_fails).
    Exactly the values with an `N` of value 0 under a length prefix are lost (C51_override_exact, C52_override_exact), and different
    values can have the same encoding (C48_override_fails).  Equivalent types can then differ on unfilled `FixSeq` (C80_override_fails).
  * `Nullable` of a type with an empty encoding is ambiguous (C18_collision, C48_nullable_fails, C51_nullable_fails).
  * Decoding ill-formed text can grow it beyond its length prefix, so re-encoding panics (C47_text_fails).
  * `{:?}` of a `Dynamic` encodes the contents to show their length, so it panics if they cannot be encoded, even for decoded
    values (C75_exact, C75_decoded_fails); with `enc_len_estimable_override` it can show a wrong length (C75_estimate_fails).
  * `data!` accepts repeated tags and decodes all but the first of them wrongly (C29_repeated); values of such arms also hash
    alike (C71_repeated_fails).  `data!` enums implement `Hash` but not `Eq`, so they cannot be keys of maps (by reading).
  * `Dynamic::write_to` writes its contents twice, so encoding values of recursive types takes time exponential in how deep they
    are nested, though decoding them is linear: a hostile message of 305 bytes takes pushing more than 10^19 bytes to encode
    again (C93_dynamic, C93_sharp, C93_exponential).  With `enc_len_estimable_override` it pushes just the encoding, but
    estimates every level again: a quadratic number of calls (C93_override_recursive, C93_quadratic).
  * Nothing limits how deep decoding a recursive type recurses, so short hostile inputs can exhaust the stack
    (C59_no_limit, C59_no_limit_value).
  * On 32-bit targets the number of bits of an `N` or `Z` is cut off at 32 bits before it is used: a number of `2 ^ 32 + 1` bits
    is estimated at one byte, and with `enc_len_estimable_override` that becomes its length prefix (C89_bits_fails).
  * Counts of `2 ^ 64` bytes (on 32-bit targets `2 ^ 32`) or more wrap around in release builds: a `Dynamic` with such contents is encoded with a wrong
    prefix (C89_wraps).  Sequences of padded empty values get that long without filling memory.
  * A `MemoBuilder` records the tag of `Some` together with the first piece of the payload or alone, depending on what the
    payload writes first (C61_option_glued, C61_option_alone).
  * `try_decode` for `()` ignores its input, also text that is not hex (C43_unit_unchecked).
* Conversions
  * `RangedInt` with `MIN > 0`: conversions accept numbers below `MIN` or reject numbers in range (C31_try_from_fails, C50_fails); the number is compared with `0..=MAX-MIN`, so with a signed backer the result can be outside the range (C31_try_from_exact).
  * Functions of `RangedInt` documented to check the range itself do so only with `invalid_range_checking`; `default`,
    `min_val` and `max_val` never do (C63_fails, C63_latent).
  * Hex text: `"+f"` is accepted as a byte; texts with multi-byte characters can panic (C33_fails, C34_fails).
  * Collecting or extending `FixSeq`/`LimSeq` stores nothing (C42_collect_loses, C42_extend_loses).
  * The documentation of `FixSeq: TryFrom<&[T]>` says that shorter slices are accepted; they are rejected (C27_constructors).
  * `FixSeq`/`LimSeq` reserve room for all their elements before reading any: where `N` elements take more than
    `isize::MAX` bytes decoding panics whatever the input (C70_room_fails, C97_no_room), and a single byte of input can make
    it reserve as much as the type allows (C97_amplifies).
  * With array storage the bounds from 2^32 on cannot be used: decoding panics on every input (C70_large_fails).
  * `SplitVec::unfreeze` leaves the cached length behind (C38_unfreeze_unbalances); `LeftoverState::append` does not
    always empty its argument (C41_append_drains).
  * Encodings of signed integers, doubles, `N`, `Z`, of contents of open length under a length prefix, of enumerations whose
    tags are not in the order of declaration and of records in which something follows a part of open length do not sort
    like the values (C98_fails).
  * A NaN is decoded to a value that is not equal to it; zeros of different sign are equal with different encodings (C64_fails).
  * `MemoBuilder`s that show and finalize alike may be unequal, since `==` also compares whether the last segment is open
    (C65_fails).
  * `MemoBuilder` does not separate the bytes of consecutive calls though its documentation says so
    (C40_calls_not_separated); pushing the empty slice to it is not the same as not pushing, contrary to the documentation
    of `Target` (C73_memo_fails).
  * `TagValidator::has_valid` is documented as the opposite of what it does (C83_documented_fails); derived `Estimable` for
    a directly recursive record does not compile (by reading).
  * A failed decoding is not undone (C85_no_rollback) and leaves windows open (C85_left_open); what can be read after bytes
    were left over in a window depends on the parser (C85_left_over).
  * The default value of a `FixSeq` is empty, so what it encodes to is not accepted (C86_fix_fails); the default value of a
    `RangedInt` with `MIN > 0` may be out of range, though the documentation of `to_underlying_unchecked` says that such
    values come from `from_underlying_unchecked` only (C86_ranged_fails).
  * Decoding a `FixedString` does not check that the bytes are UTF-8, so `as_str_unchecked` on a decoded value can be
    undefined behaviour, though the documentation of `from_array_unchecked` calls such values unsafe to make (C87_broken_promise).
  * A struct with a field whose type names a user type `P` cannot derive `Decode`, because the generated function has a type
    parameter `P` (C88_capture_fails).
  * The feature `smallvec_viewstack` used in `src/internal/view.rs` is not declared; `Cargo.toml` declares
    `smallvec_framestack`, which nothing uses (by reading).
* Error messages
  * The width given to `{:#0width$x}` counts the prefix `0x`, so tags are printed with two digits fewer than their
    width has, and tags of one and of two bytes can print alike (C72_lost).

## 5. Property by property

"Full" means the statement of `properties.jsonl` is proved for all inputs; otherwise the limits are named and the
full statement is refuted by the named witness.  `MANIFEST.json` lists the theorems.

* **C01** ByteParser is a windowed cursor – partial. Invariant (cursor ≤ innermost limit ≤ … ≤ length), one exact lemma per operation (`Refine.Exact`, after `Refine.Byte`), lifted to operation lists by induction over the list. Exact for all arguments (`C01_byteparser_exact`); the cursor's own results are not given for windows larger than the buffer and, in release builds, for ends that are no `usize`.
* **C02** MemoParser observes the same results as ByteParser – full. Relation "same buffer, same offset", for all states whatsoever: equality of outcome and of all later observations for every operation list; where the log can fail to print is exact too.
* **C03** SliceParser agrees with ByteParser on well-bracketed use – partial. Relation to the same cursor on well-bracketed lists; the three divergences outside are proved as witnesses, and the answers of a parser whose outermost scope has been closed are tabulated (C03_slice_closed).
* **C04** Parsing never reads outside the input buffer – partial. `ub` is a value of the outcome type; invariants exclude it for `SliceParser` always, for the others while no end leaves `usize`. In release builds every other read is `ub`. In arbitrary states (`Loose`): exactly the reads whose wrapped end is within the window, and for `MemoParser` failing calls whose log cannot be printed.
* **C05** Failed reads and failed window openings leave the parser unchanged – full. Equality of states in the `err` branch of every operation, in every reachable state.
* **C06** Closing a window succeeds exactly when it has been consumed exactly – partial. Exact case analysis of `enforce_target`/`test_target` in terms of the cursor; `SliceParser` only while a window is open. All other states: exact in terms of `offset`, `view_len` and the results so far.
* **C07** remainder is exactly the number of readable bytes and windows are properly nested – partial. From the exact lemmas, for every `usize`; in release builds `set_fit` accepts sizes whose end is no `usize`. Nesting is part of the invariant. In arbitrary states by computing with the wrapped sums (`consume_loose`).
* **C08** take_self_terminating returns the shortest terminated prefix – partial. Loop of `take_self_terminating` against the shortest terminated prefix, for every lawful parser, then for the three. After wrapped requests: an invariant of all states (`Loose`, `Refine.Reached`), which is the cursor's while `offset ≤ view_len`.
* **C09** The result of decoding does not depend on the chosen parser – partial. Errors are compared by class: kind of error and all its numbers, except positions and the numbers reported with windows. Every codec refines one pure decoder on all lawful parsers (`Parses`), by induction over schemas; returned values come from it even where it makes no promise (`Schema.sound`). Limits for errors: `wild` inputs (C09_fails), `SliceParser` under `check_complete_parse` (C43_slice_fails). In release builds the two sides are settled: C09_release_exact says exactly when two parsers agree, C09_release_byte_memo that `ByteParser` and `MemoParser` do unless both have undefined behaviour, C09_release_slice that `SliceParser` agrees with another parser exactly where that one comes back. Where a debug build does not panic, the check `VPadded` makes there changes nothing (`checked_parse`, from the relation of C77), so that release builds inherit everything that holds of debug builds on those inputs: C09_checked_*, likewise C46, C57, C74, C82, C85 (`*_checked_*`).
* **C10** Fixed-width integers and floats round-trip in big-endian layout – full. One k-byte big-endian codec on bit vectors; positional specification; doubles by bit pattern.
* **C11** Booleans have exactly two encodings – full. Case analysis on the byte.
* **C12** Arbitrary-precision naturals round-trip – full. Base-128 digits, induction on digits.
* **C13** Arbitrary-precision integers round-trip – full. As C12 with a six-bit first digit and sign.
* **C14** zarith encodings are minimal – full. Minimality against every self-terminated string of the same value.
* **C15** zarith decoding accepts exactly the self-terminated strings and computes the positional value – full. Accepts exactly the self-terminated strings; value by position; dichotomy for all inputs; equal numbers iff equal positional values (N and Z).
* **C16** zarith length estimate equals the encoded length – partial. Bit length against number of digits; one too small for `N` zero (C16_N_exact).
* **C17** Option encodes a presence flag followed by the payload – full. Arbitrary payload codec, of which only the behaviour on the bytes in question is assumed.
* **C18** Nullable is unambiguous inside its window – full. As C17, payload with non-empty encodings; collision witness otherwise.
* **C19** Dynamic prefixes exactly the payload length and confines the payload – partial. Arbitrary payload; all outcomes enumerated (C19_cases). Debug panic of oversized windows is the exception; when it happens and the numbers of the error are exact. Also after any calls and in any windows (C19_too_long_any).
* **C20** VPadded leaves exactly N trailing bytes to the rest of the window – partial. Windows of at least N bytes in full; what happens in shorter ones is exact (panic, error, or a window that ends before the cursor). Both parsers that count (C20_short_release_exact, C20_short_release_memo).
* **C21** Padded appends and skips exactly N bytes – partial. Both settings of `check_padding`; fails for N near `usize::MAX` (`C21_huge_fails`), settled for every N by `C21_short_exact`.
* **C22** Opaque bytes take the rest of the window verbatim – full. Direct.
* **C23** Valid UTF-8 strings round-trip; decoding invalid UTF-8 is total – full. Encoder compared with the encoder of Lean's own strings. Decoding any bytes: `ReadAs`, the Unicode replacement of maximal subparts (one U+FFFD each), shown to be unique.
* **C24** Fixed-width byte and character strings – full. All `n`; validity by existence of a text.
* **C25** Sequence decodes elements until the window is exhausted – full. Loop law for arbitrary element codecs; termination for elements that consume; divergence witness.
* **C26** FixSeq holds and decodes exactly N elements – full. Bounded loop; exactness of `N`.
* **C27** LimSeq never holds more than N elements – full. Bound as invariant of all operation lists on `FixSeq`/`LimSeq`, and of decoding.
* **C28** C-style enums: only declared tags decode – full. Arbitrary tag lists.
* **C29** Data-carrying enums dispatch on the tag – full. Arbitrary arm lists with arbitrary payload codecs; repeated tags are a witness.
* **C30** Derived records encode fields in order and round-trip – full. Arbitrary field lists; a greedy field before others is a witness.
* **C31** Ranged integers stay in range – partial. Integers; fails for conversions with MIN > 0 (witness).
* **C32** Ranged floats stay in range – full. Values of floats as rationals/infinities/NaN computed from bit patterns; order on them.
* **C33** Hex strings denote bytes exactly – partial. Texts as character lists with byte offsets; exact acceptance and panic conditions for all texts; the plain claim for ASCII texts without plus signs.
* **C34** Comparing a hex string with a text is comparing the denoted bytes – partial. As C33.
* **C35** All output targets agree – full. `Writes` over every lawful target.
* **C36** write_to returns the number of bytes it appended – partial. As C35; limits only under `enc_len_estimable_override`, where C36_override_exact says by how much.
* **C37** Estimated length equals encoded length – partial. Induction over schemas; for every encodable value: the length, less the number of `N` zeros, plus the vacancies of `FixSeq`s estimated by their type (C37_all).
* **C38** Segmented buffers keep their books balanced – full. Invariant over operation lists on families of buffers.
* **C39** Segmented buffer operations act on lists of segments – full. Refinement to lists of segments.
* **C40** MemoBuilder records the write segmentation without changing the output – full. All histories of both builders.
* **C41** Clean-up accounts for every unread byte – partial. The clean-up loop on all three parsers, all reachable states. After wrapped requests: as C08.
* **C42** Collecting into a bounded sequence keeps the elements – partial. The code does not do it (witnesses); what holds is proved.
* **C43** Complete-parse checking rejects exactly the inputs with trailing bytes – partial. Both settings of the feature; `SliceParser` under the check never succeeds (C43_slice_fails).
* **C44** Skipping is reading and discarding – partial. Equality of state transformers, also in states after any calls; ends that are no `usize` in release builds are excluded and treated by `C44_release_overflow`.
* **C45** Length prefixes are never truncated – partial. Every prefix type; limits only under `enc_len_estimable_override`, where C45_override_exact says by how much.
* **C46** Decoding untrusted bytes always returns – partial. Totality of pure decoders by induction over safe schemas; witnesses for each excluded case. C46_checked_partial: termination only needs elements that read something when there is something (`Schema.hungry`, so strings and sequences count), and `VPadded` is allowed where a debug build does not panic. C46_release_exact: what release builds do where the pure decoder makes no promise is computed from the type and the input (`Schema.fall`); `Schema.avoids` is a check of the type that rules out the bad ends. C46_release_slice_partial: in release builds `SliceParser` comes back with a value or an error for every type whose sequences have elements that read something, `VPadded` included (`Schema.fall_zero`). C46_panic_exact: ByteParser and MemoParser panic on an input exactly where SliceParser panics or, in debug builds, reports a window larger than the whole input.
* **C47** Decoding then encoding is idempotent (canonicalisation) – partial. Law by induction over schemas; needs room for replacement characters around text (witness).
* **C48** Encodings are prefix-free / injective – partial. From the round trip; with `enc_len_estimable_override` only without `N` of value 0 under length prefixes (C48_override_fails).
* **C49** Parsing is local: bytes after the end of what is read do not matter – full. Law by induction over schemas, carried to all parsers by `Schema.sound`.
* **C50** Ranged integer constants and conversions denote the numbers they are named after – partial. As C31; `C50_positive` computes the constants for `MIN > 0`.
* **C51** Everything that is encoded decodes back – partial. Every valid schema value; round trip law by induction. With `enc_len_estimable_override` exactly the values without an `N` of value 0 under a length prefix come back (C51_override_exact): what is written is then inverted by the decoder only if announced and written lengths agree, by induction on schemas (`Schema.back`).
* **C52** Recursive types behave like their finite unfoldings – partial. Laws of unfoldings transferred to the limit; conditions of C47 for re-encoding; conditions of C51 for the round trip (C52_override_exact).
* **C53** length_prefix foretells the encoding – full. Prefix computed by `length_prefix` is the prefix written; under estimated lengths it is short by the number of `N`s with value 0 (`C53_override_exact`).
* **C54** Arbitrary-precision numbers convert to machine integers exactly when they fit – full. Exactly the numbers that fit.
* **C55** The memoizing parser logs what was read – partial. Invariant of all runs relating log and input; fails after `skip_exactly` (witness).
* **C56** A recursive type's code is its definition calling itself – full. Solutions of the equations, least solution, uniqueness, for all families of definitions.
* **C57** Decoding never reads outside of the input – partial. `Safe` as a `Closed` predicate over every schema; refinement for release builds. Fails for `VPadded` in release (witness), exactly when C57_exact says so: once a window ends before the cursor no read advances it (`Sinks`, for the three parsers), which settles how decoding every type ends (`Schema.stuck`, `Schema.falls`).
* **C58** Hex text is a faithful transport – full. Uniqueness of the lowercase text, composition of C36, C33, C43, C51 and the canonical-form theorem; recursive types through C52.
* **C59** Recursion is no deeper than the input is long – full. Totality of the unfolding of depth length + 1; converse by a family of inputs for `U8Seq`.
* **C60** A parser is an iterator over the bytes of its window – partial. Induction on the number of calls from the operation laws; `collect` by induction on the window. After wrapped requests: as C08, on MemoParser up to whether its log can be printed.
* **C61** A MemoBuilder partitions an encoding by its structure – full. Effect of every `write_to` on a builder as a list of marks, related to `SplitVec` by its refinement; each rule read off from the marks.
* **C62** Decoding takes a linear number of parser calls – full. Potential argument: every rule bounds calls by constants plus a multiple of the bytes read; loops by induction on the bytes left, recursion by induction on the unfolding. Wrapped windows (`VPadded` in release builds): nothing succeeds in them (`Wraps`), so whatever is run there makes boundedly many calls (`Idle`).
* **C63** invalid_range_checking rejects exactly the unsound range types – full. Case distinction on `SANITY`; the checked codec is the unchecked one for sound ranges.  Composite types: induction over types with a relation between decoders (`Guards`) that holds for any parser; recursive types through their unfoldings.
* **C64** Comparing values agrees with comparing encodings – full. Laws of comparisons closed under the combinators, by induction on schemas; with C48 and C51 for encodings.  Recursive types: any two or three values are values of one unfolding, and comparing in another one makes no difference.
* **C65** What equality of builders means – full. Representation by segments is a bijection on reachable buffers; C40 and C61 for builders, C48 for values.
* **C66** Safe buffer accessors stay inside the buffer – partial. Direct computation. Sums that wrap in `get_slice` and `get_byte` at the length are excluded (C66_get_slice_fails, C66_get_byte_fails).
* **C67** Decoded values are at most linear in the bytes read – full. An amortized bound on decoder specifications, closed under the combinators, by induction on schemas and on unfoldings; `Schema.inv` carries it to the parsers.
* **C68** A refused number is reported with the bound it violates – full. `restrict` is characterised by the violated bound (an inductive predicate transcribed from its documentation), decoders and conversions inherit it.
* **C69** Sequences that violate their length bound do not get through – partial. Encoding is concatenation (C26, C27) and never fails on account of the length (C69_fails); a cut of the input into elements decides which lengths the decoders accept.
* **C70** Bounded sequences do not depend on how they are stored – partial. The array holding a list is a function of the list; every operation and every round of the decoding loops commutes with it. Bounds from 2^32 on (C70_large_fails) and of more than isize::MAX bytes (C70_room_fails) are excluded.
* **C71** Values can be keys of hash maps – full. Equal values of types without doubles are identical (C64), so the calls are; the feed of every type is prefix-free by induction on the type: fixed widths, length prefixes, and 0xff after UTF-8.  Recursive types as for C64.
* **C72** Error messages identify the error – full. Each message begins with one of nineteen pairwise clashing literals or a digit; numbers are cut off where their digits end and read back. `Alike` is the exact relation of equal texts.
* **C73** Targets keep their documented equations, and those that do receive the encoding – partial. Four targets satisfy the equations as equalities of states; `MemoBuilder` does on non-empty slices and differs on the empty one (C73_memo_fails). A target with the equations is lawful for "has seen these bytes", and all encoders are proved over lawful targets.
* **C74** User-defined parsers decode like the library's – full. Being indistinguishable by traces is itself a simulation relation (acts_step), so such a parser is lawful, and all decoders are proved over lawful parsers.
* **C75** Values can be printed for debugging, and the text identifies the value – partial. Induction on schemas: only `Dynamic` can panic, and it does where `enc_len` of its contents does. Texts are cut at punctuation, so each type's printer is self-delimiting. Decoded values can be encoded (C47) and hence printed, except for text that outgrows its prefix (C75_decoded_fails).  Recursive types: the same inductions with holes, whose text is given (`debugIn`).
* **C76** A message that was cut off is reported as cut off – partial. Induction on schemas with the claim that a proper prefix of an encoding is decoded to an error that wants more, or, if the type takes what it finds, to a value without rest; uses the round trip for the parts that have arrived. `VPadded` counts from the end of the window and takes what is left of the message for something else (C76_fails).
* **C77** Release builds do what debug builds do, wherever those do not panic – full. A relation between programs kept by sequencing and loops that relates the parser calls of two builds relates the decoders of all types (Related.schema, used three times); debug arithmetic is release arithmetic or a panic.
* **C78** Cargo features change only what they are for – full. The same theorem with other relations; the completeness check by inversion of decoders (Schema.inv) and C41. What enc_len_estimable_override does to encodings is C43.
* **C79** Widening a type keeps its messages – full. Induction on the relation "wider" between types: parsers are related by "the same, or the old one reports what is out of its range", which sequencing and loops keep; recursive types by their unfoldings. A range with positive least number cannot be extended downwards (C79_minimum).
* **C80** Rearranging a type keeps its wire format – full. Induction on the relation "rearranged" between types: encodings agree under a bijection of values, and each decoder accepts what the other accepts, which sequencing, windows and loops keep; recursive types by their unfoldings, on which the bijections agree. Decoding assumes that elements of sequences are not empty. `VPadded` by 0 bytes is not transparent (C80_vpadded_fails).
* **C81** Changing a part of a value changes the bytes of this part only – full. The relation of values that agree outside of the holes of a schema, and the relation of byte strings that agree outside of given blocks, are closed under the combinators; a length prefix stays because the lengths do. Recursive types: for the body of a definition with values in its holes.
* **C82** An error of decoding is the fault of a part of the type and of a stretch of the input – partial. For each decoder the errors it finds, with the stretch of input, are collected through the combinators (`Finds`); the parsers report the same errors up to positions (C09). Not for `VPadded` in release builds, where lengths wrap around (C82_wrapped).
* **C83** A tag is accepted exactly if the validator contains it – full. Case analysis of `take_tagword` for an arbitrary validator, and of the six containers. The documentation of `has_valid` says the opposite of what the code does; validators written to the letter of it get the two errors swapped (C83_documented_fails).
* **C84** The causes of an error come to an end and are told by its text – full. Each cause is of a deeper type (`depth`), so chains end; texts, and which errors have no cause or convert, by cases.
* **C85** After a failed decoding the parser can still be used – partial. Induction over types of what is left of the parser (`Leaves`), over the laws of the three parsers with what they do on a window that is closed too early (`Stays`). Not for `VPadded` and arrays of more than `isize::MAX + 1` bytes in release builds on `ByteParser` and `MemoParser` (C57_fails). No rollback (C85_no_rollback), windows stay open (C85_left_open), parsers differ after leftover bytes (C85_left_over).
* **C86** Default values are good values – partial. Induction over types that have a default; the conditions on ranges and fixed lengths are necessary and sufficient (C86_exact).  The default value of a recursive type is that of any unfolding that has one.  Fails for `FixSeq` (C86_fix_fails) and for ranges above zero (C86_ranged_fails).
* **C87** Only proper values get through a message – full. Induction over types with a predicate on all parts (`eachPart`): what decoders yield, and where the wire format is undefined.
* **C88** Deriving gives the codec of the fields, however the struct is written – partial. Induction over lists of fields of what the generated syntax means. `Decode` cannot be derived where a type is called `P` (C88_capture_fails).
* **C89** Counts of bytes are right – full. For both widths of `usize`. Induction over types: counts agree up to what addition in `usize` keeps (`Near`, `Est`), exactly after each addition; recursive types through their unfoldings, whose counts do not depend on the depth. C89_wraps shows what happens beyond `usize::MAX` bytes, C89_bits_fails what happens to numbers whose bits are no `usize` (32-bit targets).
* **C90** Printed numbers are the numbers – full. Digits are read back by an independent reader of numerals (`Spec/Numeral`); what is filled in is told apart from digits by filtering. All flags, widths, alignments.
* **C91** Printed parsers and builders show their state – full. Texts are cut where a number or a list ends (`debugList_cut`), so each field is read back in turn. Builders: by the runs of C40.
* **C92** {:?} of an error identifies the error – full. Texts are cut where a number, list or quoted text ends, so each field is read back in turn; what foreign errors print as is arbitrary.
* **C93** What it costs to encode a value – partial. Counters beside every target and every estimate (`Schema.costed`, `Schema.gauge`), shown to leave what is written and estimated alone and to add the same for all targets (`Schema.counts`, `Schema.gauge_eq`); bounds by induction on types (`Adds`, `Tallies`). Linear time fails for recursive types, with witnesses.
* **C94** Types with hand-written Encode and Decode go together with the library's types – full. Predicates on code: `Written` (bodies of `parse`), `Pushed` (bodies of `write_to`); both have a meaning that is the same for every lawful parser or target (`Written.means`, `Pushed.appends`). `Contract` lists what a user promises; each type constructor keeps it (the lemmas of layer 3 take arbitrary components). `Pair` and the example in the documentation of `Decode` are instances. Recursive decoders and recursive types keep it, too (`recM` is the limit of bounded recursion; `Decls.contract`). Errors of code without windows may be caught (`Plain`, `C94_recovery`, `C94_fallback`; all library types without `Dynamic` and `VPadded`: `C94_recovery_types`); code that recovers from errors within a window is outside, with witnesses (`C94_recovery_fails`, `C94_recovery_dynamic_fails`).
* **C95** Errors say truthfully where decoding stopped – partial. `Composed.locks`: by induction over the code of a decoder, a run with a parser that gives the exact answers of the cursor specification next to the run with `SliceParser`; `Composed.twins`: two runs over inputs that agree up to where the first one stops. Types with `VPadded` in release builds go through the debug decoder (C95_vpadded_partial, C95_recursive_vpadded_partial). Error values come from `Cursor.answer`, which is exact. The number of bytes left in the buffer is wrong (C95_bytes_left_fails); C95_bytes_left_exact says what it is. Decodings that begin after any calls: C95_any_partial, C95_between (only the bytes between beginning and end matter).
* **C96** Parts under a length prefix can be left undecoded and decoded later – full. `Sealed` is data: which parts of a type another one leaves undecoded; `Opens` relates their values. `Sealed.twoStep`: by induction over it, decoding at once is decoding in two steps, from the fact that decoders of a window see the window only (`ReadsPrefix`) and that `Dynamic` and `VPadded` ask for it to be used up. `Sealed.wire_eq` for encoding. The estimate feature needs right estimates (C96_override_fails).
* **C97** How bounded sequences are stored makes no difference if there is room for them – full. `Schema.storedCodec` is the codec of a type over the storage model of C70. `Schema.stored_guards`: by induction over the type, its outcomes are those of `Schema.codec` or panics, and panics replace a value exactly if some part of it has no room (`RoomPart`); recursive types by `Decls.lift_storedSim`, for layouts in which the sizes of elements do not depend on how often the type is unfolded (`Layout.Uniform`). `Schema.reserved_le` bounds what is reserved by the size of the value, and C67 that by the input.
* **C98** Encodings sort like the values – partial. `Schema.sorts` is a static condition on types; `Schema.sorts_wire`: by induction over the type, encodings with anything after them compare like the values and then like what follows (`Sorts`); `Decls.sorts` carries it to recursive types. Integers and doubles whose ranges lie on one side of zero sort as well; for integers, doubles and enum tags the condition is exact (C98_int_exact, C98_f64_exact, C98_tags_exact). It fails for signed integers, doubles, `N`, `Z`, contents of open length under a length prefix, tags out of order, and open lengths that are not last (C98_fails).
* **C99** The sizes messages can have – full. `Schema.Sizes` is a compositional description of the sizes. `Schema.measures`: by induction over the type, what the specified decoder reads has one of them; `Schema.wire_sizes` for encodings; `Schema.occurs`: each of them is the size of an encoding. `Schema.least` and `Schema.most` are computed from the type (`least_spec`, `most_spec`). Recursive types through their unfoldings. With trusted estimates a zero `N` under a length prefix escapes (C99_override_fails).
* **C100** Conversations through one target and one parser – partial. `Protocol` is a tree of types branching on values; its reader and writer are the obvious calls. Agreement with one specified decoder (`Protocol.parses`, `Protocol.dec`), round trip, cuts and canonicity by induction over the tree from the theorems about single types. Reading arbitrary bytes is an instance of C94 (`Protocol.written`). A message that does not delimit itself has to be the last one (C100_fails). Messages of any types, hand-written and recursive ones included: `Exchange`, whose runs keep the contract of C94 if the messages do (`C100_any_types`). Progress and re-writing likewise (C100_any_types_progress, C100_any_types_rewrite). How a run ends in release builds when a `VPadded` finds too few bytes is exact (C100_release_exact, `Protocol.fall`); values still agree (C100_release_values).
* **C101** Conversions between byte containers keep the bytes – full. `Step` lists the calls that turn one holder of bytes into another (`Vec`, slices, arrays, `Box`, `Rc`, `Arc`, `Cow`, `Bytes`, `ByteSequence`, `HexString`, `FixedBytes`, hex texts, iterators), each run as its body says; `Path` is any sequence of them. One call by cases (C101_step), any number by induction (C101_path). Texts are excluded where values are compared, since upper-case digits come back in lower case (C101_text_fails).
* **C102** Wrappers add nothing to what they hold – full. `Wrappers.Ty` is any nesting of the wrappers, `Step` the calls of their accessors, `held` what is in a value when wrappers are ignored; it determines the value (C102_unique), so that paths that keep it commute (C102_confluent). Mutable references are lenses (C102_modify).
* **C103** The alternate form {:#?} says the same as {:?}, on several lines – full. `Place.join` reads a text and drops line breaks with what follows them; `Spreads t p` says that it turns `t` into `p` in any surroundings, which each way of printing keeps (`Lemmas/Pretty`); induction on schemas (`Lemmas/Lays`) and on unfoldings (`Lemmas/RecLays`). Hypothesis: names in the program, and what the standard library prints for strings and doubles, are words without line breaks (`Printing.Tidy`). Layout is stated separately, with `flatMap` over characters (C103_layout, C103_sequence, C103_record, C103_bytes, C103_numbers, C103_nullable). Errors: C103_parse_error, C103_parse_error_iff, C103_decode_error (a `HexConvError` quotes text as it is; with line breaks in it the claim fails: C103_decode_error_breaks). Parsers and builders: C103_states, C103_parser_states.

## 6. Testing the theorems

`seeded/LOG.jsonl` has one line per wrong program tried: in a scratch copy one definition of the model is changed so that
a property becomes false, everything is rebuilt with broken proofs replaced by placeholders, and the property theorems
that depend on a broken proof are listed.  Where no property theorem failed, theorems were added or tightened; the
line names them.

The model itself is tested in `Verif/Conformance.lean`: it transcribes the unit tests of `/repo/src` and the asserting
examples in its documentation as statements about the model, each checked by evaluation.  These are tests of the
transcription, not proofs of properties.
