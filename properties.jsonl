{"id": "C01", "title": "ByteParser is a windowed cursor", "statement": "Starting from any input, every sequence of parser operations (read one byte, read n bytes, open a window, test/close a window, skip, query remainder/offset) on a ByteParser gives exactly the results of an abstract cursor over the input that keeps a stack of nested windows: bytes come out in input order, each at most once, and no read crosses the end of the innermost open window.", "quantifier": "for all input byte strings and all finite sequences of parser operations with all arguments", "why_tests_cant": "The state space (buffer x nested windows x call sequence) is unbounded; unit tests only exercise a handful of scripted sequences.", "anchors": ["src/parse/mod.rs: byteparser::ByteParser", "src/internal/offset.rs: ContextOffset, FrameStack, Index", "src/parse/buffer.rs: VecBuffer"]}
{"id": "C02", "title": "MemoParser observes the same results as ByteParser", "statement": "For the same input and the same sequence of operations MemoParser returns exactly the same values, errors, offsets, remainders and leftover bytes as ByteParser; the munch log it keeps never influences a result, except through the diagnostic printout on failing operations.", "quantifier": "for all inputs and all finite operation sequences", "why_tests_cant": "Equality of two stateful implementations over all call sequences cannot be enumerated.", "anchors": ["src/parse/mod.rs: memoparser::MemoParser, byteparser::ByteParser"]}
{"id": "C03", "title": "SliceParser agrees with ByteParser on well-bracketed use", "statement": "For the same input and any sequence of operations in which a window is only closed when it was opened and is exactly consumed, SliceParser returns the same bytes, the same remainders and fails in the same places as ByteParser.", "quantifier": "for all inputs and all well-bracketed finite operation sequences", "why_tests_cant": "Needs a simulation argument over every reachable pair of states; tests compare a few decodes.", "anchors": ["src/parse/mod.rs: sliceparser::SliceParser, byteparser::ByteParser", "src/parse/buffer.rs: SliceBuffer"]}
{"id": "C04", "title": "Parsing never reads outside the input buffer", "statement": "No sequence of safe parser calls makes ByteParser, MemoParser or SliceParser perform an unchecked read outside the input buffer.", "quantifier": "for all inputs, all finite sequences of safe calls, all usize arguments", "why_tests_cant": "Memory safety of unsafe reads is a statement about every reachable cursor and every argument, including near usize::MAX.", "anchors": ["src/parse/buffer.rs: VecBuffer::get_slice_unchecked, VecBuffer::get_byte", "src/internal/offset.rs: Index::increment_checked, ContextOffset::advance", "src/parse/mod.rs"]}
{"id": "C05", "title": "Failed reads and failed window openings leave the parser unchanged", "statement": "When consume_byte, consume(n), consume_arr, set_fit(n), or skip_exactly(n) returns an error, the parser afterwards behaves as if the call had not been made (same offset, view length, remainder, open windows, same subsequent results).", "quantifier": "for all parser states reachable from any input, and all n", "why_tests_cant": "Atomicity has to hold in every reachable state; tests check only single failing calls.", "anchors": ["src/parse/mod.rs: Parser::consume, Parser::set_fit, Parser::skip_exactly", "src/internal/offset.rs: ContextOffset::advance, ContextOffset::set_fit"]}
{"id": "C06", "title": "Closing a window succeeds exactly when it has been consumed exactly", "statement": "enforce_target returns Ok iff a window is open and exactly its bytes were consumed; with no open window it returns CloseWithoutWindow and changes nothing; with unread bytes it returns CloseWithResidue with the exact number of unread bytes; test_target answers whether an immediate enforce_target would succeed and does not change the parser.", "quantifier": "for all reachable parser states", "why_tests_cant": "Depends on the relation between cursor and every window on the stack for all histories.", "anchors": ["src/internal/offset.rs: ContextOffset::test_target, ContextOffset::enforce_target", "src/parse/mod.rs: Parser::test_target, Parser::enforce_target"]}
{"id": "C07", "title": "remainder is exactly the number of readable bytes and windows are properly nested", "statement": "In every reachable state consume(n) succeeds iff n <= remainder(), and set_fit(n) succeeds iff n <= remainder(); after set_fit(n) the remainder is n; opening a window never makes more bytes readable.", "quantifier": "for all reachable parser states and all n", "why_tests_cant": "A universally quantified contract between four methods, over all call histories.", "anchors": ["src/parse/mod.rs: Parser::remainder, Parser::consume, Parser::set_fit (contract documentation)", "src/internal/offset.rs: FrameStack::push_frame, Stack::push_validated"]}
{"id": "C08", "title": "take_self_terminating returns the shortest terminated prefix", "statement": "take_self_terminating(f) returns the shortest prefix of the readable bytes whose last byte satisfies f and advances exactly past it; if no readable byte satisfies f it fails with an error carrying all readable bytes; it always terminates.", "quantifier": "for all inputs, all windows and all predicates f", "why_tests_cant": "Quantifies over all predicates and all byte strings.", "anchors": ["src/parse/mod.rs: Parser::take_self_terminating"]}
{"id": "C09", "title": "The result of decoding does not depend on the chosen parser", "statement": "For every codec type built from the library's combinators, decoding the same bytes through ByteParser, MemoParser or SliceParser yields the same value or fails in all three. Where two parsers report an error it is the same one, down to the number of bytes asked for and available, except for the position in the input and the numbers reported with windows.", "quantifier": "for all schema types (by induction over the schema), all input byte strings", "why_tests_cant": "The set of schema types is infinite and each has infinitely many inputs.", "anchors": ["src/conv/mod.rs: Decode::try_decode, Decode::decode_memo", "src/parse/mod.rs: TryIntoParser"]}
{"id": "C10", "title": "Fixed-width integers and floats round-trip in big-endian layout", "statement": "Each of u8,i8,u16,i16,u32,i32,u64,i64,f64 encodes to exactly its width in bytes, most significant byte first, two's complement; decoding any such many bytes yields the value whose encoding they are; decode(encode x) = x with nothing left over.", "quantifier": "for all values of every width, all trailing inputs, all byte strings of the width", "why_tests_cant": "2^64 values; positional layout must be right for every one of them.", "anchors": ["src/int.rs: __impls::impl_transcode_be_bytes", "src/float.rs: impl Encode/Decode for f64", "src/parse/mod.rs: take_u8..take_f64"]}
{"id": "C11", "title": "Booleans have exactly two encodings", "statement": "true encodes to 0xff and false to 0x00; decoding a byte other than these fails and reports the byte; decode is the inverse of encode and every accepted byte re-encodes to itself.", "quantifier": "for all 256 first bytes and all remaining inputs, in every parser state", "why_tests_cant": "Rejection of every other byte in every parser state.", "anchors": ["src/prim.rs: impl Encode/Decode for bool", "src/parse/mod.rs: Parser::take_bool"]}
{"id": "C12", "title": "Arbitrary-precision naturals round-trip", "statement": "Decoding the encoding of any natural number N gives the same number and stops exactly at the end of that encoding whatever follows.", "quantifier": "for all natural numbers and all following bytes", "why_tests_cant": "Unbounded numbers; tests sample small ones.", "anchors": ["src/zarith.rs: n::N"]}
{"id": "C13", "title": "Arbitrary-precision integers round-trip", "statement": "Decoding the encoding of any integer Z gives the same integer and stops exactly at the end of that encoding whatever follows.", "quantifier": "for all integers and all following bytes", "why_tests_cant": "Unbounded numbers with a special first byte; boundaries at every 6+7k bits.", "anchors": ["src/zarith.rs: z::Z"]}
{"id": "C14", "title": "zarith encodings are minimal", "statement": "The encoding of an N or Z is never longer than any other byte string that decodes to the same number, it is never empty, exactly its last byte has a clear top bit, and its last byte is non-zero unless the encoding has a single byte.", "quantifier": "for all numbers and all competing byte strings", "why_tests_cant": "Minimality quantifies over all competing encodings.", "anchors": ["src/zarith.rs: Zarith::serialize for N and Z"]}
{"id": "C15", "title": "zarith decoding accepts exactly the self-terminated strings and computes the positional value", "statement": "An N/Z decode succeeds iff some readable byte has a clear top bit, and then yields the little-endian base-128 value (with the sign bit and 6-bit first digit for Z) of the bytes up to and including the first such byte, so redundant (non-minimal) encodings are accepted and two distinct byte strings decode to the same number exactly when they have equal positional value.", "quantifier": "for all byte strings", "why_tests_cant": "Characterises the decoder on the whole input space including malformed data.", "anchors": ["src/zarith.rs: Zarith::deserialize", "src/parse/mod.rs: take_self_terminating"]}
{"id": "C16", "title": "zarith length estimate equals the encoded length", "statement": "estimate() of an N or Z equals the number of bytes written when it is encoded.", "quantifier": "for all numbers", "why_tests_cant": "Equality of a bit-length formula with the length of a radix conversion for unbounded numbers.", "anchors": ["src/zarith.rs: Estimable for N and Z"]}
{"id": "C17", "title": "Option encodes a presence flag followed by the payload", "statement": "None encodes to 0x00, Some(x) to 0xff followed by the encoding of x; decoding inverts this for every payload codec that round-trips and rejects every other flag byte.", "quantifier": "for all payload codecs satisfying the round-trip law, all values, all trailing bytes", "why_tests_cant": "Quantifies over all payload types.", "anchors": ["src/conv/mod.rs: impl Encode/Decode for Option<T>", "src/conv/len.rs: impl Estimable for Option<T>"]}
{"id": "C18", "title": "Nullable is unambiguous inside its window", "statement": "A Nullable encodes absence as the empty string and presence as the payload; when its payload never encodes to the empty string, decoding it from a window that contains exactly its encoding gives back the value; for a payload with empty encoding the two cases collide and decoding gives absence.", "quantifier": "for all payload codecs, all values, all windows", "why_tests_cant": "Ambiguity arises only for particular payload types and window boundaries.", "anchors": ["src/schema.rs: Nullable"]}
{"id": "C19", "title": "Dynamic prefixes exactly the payload length and confines the payload", "statement": "Dynamic<S,T> encodes as the S-encoding of the number of payload bytes followed by the payload; decoding reads the prefix, lets the payload codec see exactly that many bytes, and succeeds only if the payload consumed all of them; a prefix larger than the bytes available is an error.", "quantifier": "for all prefix widths (u8,u16,u30), all payload codecs satisfying the round-trip law, all values, all trailing bytes", "why_tests_cant": "Quantifies over payload types and nesting depth.", "anchors": ["src/dynamic.rs: Dynamic, LenPref"]}
{"id": "C20", "title": "VPadded leaves exactly N trailing bytes to the rest of the window", "statement": "Decoding VPadded<T,N> lets the payload see all but the last N bytes of the current window, requires it to use all of them, and leaves exactly those N bytes unread.", "quantifier": "for all payload codecs, all N, all windows", "why_tests_cant": "Window arithmetic in every reachable state.", "anchors": ["src/dynamic.rs: VPadded"]}
{"id": "C21", "title": "Padded appends and skips exactly N bytes", "statement": "Padded<T,N> encodes the payload followed by N zero bytes; decoding reads the payload and then N bytes regardless of their value (or requires zeros when padding checks are enabled), and fails when fewer than N remain.", "quantifier": "for all payload codecs, all N, all padding contents, all windows, both feature settings", "why_tests_cant": "Quantifies over padding contents and payload types.", "anchors": ["src/schema.rs: Padded"]}
{"id": "C22", "title": "Opaque bytes take the rest of the window verbatim", "statement": "Bytes and Vec<u8> encode verbatim and decode to exactly all unread bytes of the current window, never failing.", "quantifier": "for all byte strings and all reachable parser states", "why_tests_cant": "All windows and contents.", "anchors": ["src/schema.rs: Bytes", "src/conv/mod.rs: impl Encode/Decode for Vec<u8>"]}
{"id": "C23", "title": "Valid UTF-8 strings round-trip; decoding invalid UTF-8 is total", "statement": "Every String encodes to its UTF-8 bytes and decodes to itself from a window of exactly these bytes; String decoding never fails, and re-encoding the decoded text is the original bytes exactly when those were valid UTF-8.", "quantifier": "for all strings, all byte strings", "why_tests_cant": "All Unicode texts and all ill-formed byte strings.", "anchors": ["src/conv/mod.rs: impl Encode/Decode for String"]}
{"id": "C24", "title": "Fixed-width byte and character strings", "statement": "FixedBytes<N> and FixedString<N> encode to exactly N bytes and decode from exactly the next N bytes; constructing one from a slice succeeds iff its length is N, otherwise the error reports both lengths.", "quantifier": "for all N, all contents, all inputs", "why_tests_cant": "Generic over N.", "anchors": ["src/fixed.rs: FixedBytes, FixedString", "src/error.rs: WidthError"]}
{"id": "C25", "title": "Sequence decodes elements until the window is exhausted", "statement": "A Sequence encodes as the concatenation of its elements; for an element codec that round-trips and never encodes to the empty string, decoding from a window holding exactly that encoding gives the same list; decoding terminates whenever each successful element parse consumes at least one byte.", "quantifier": "for all element codecs and all lists of values", "why_tests_cant": "Quantifies over element types and list lengths; non-termination is invisible to tests.", "anchors": ["src/seq/mod.rs: Sequence"]}
{"id": "C26", "title": "FixSeq holds and decodes exactly N elements", "statement": "Decoding FixSeq<T,N> succeeds only with exactly N elements; encode/decode is the identity on saturated sequences of non-empty elements; after N elements nothing more is read.", "quantifier": "for all N, all element codecs, all inputs", "why_tests_cant": "Generic over N and T.", "anchors": ["src/seq/fix.rs: FixSeq"]}
{"id": "C27", "title": "LimSeq never holds more than N elements", "statement": "No sequence of constructor and mutation calls produces a LimSeq (or FixSeq) with more than N elements; decoding reads elements until the window is exhausted, gives back any encoded value of at most N elements when the window holds exactly its encoding, and fails with a length error as soon as an (N+1)st element has been read.", "quantifier": "for all N, all operation sequences, all inputs", "why_tests_cant": "Invariant over all call histories.", "anchors": ["src/seq/lim.rs: LimSeq", "src/seq/boundedseq_impl.rs: BoundedSeq"]}
{"id": "C28", "title": "C-style enums: only declared tags decode", "statement": "An enum declared with cstyle! encodes to its backer's encoding of the declared discriminant and decodes exactly the declared discriminants; any other tag is rejected with the offending tag and the list of valid tags, after consuming only the tag.", "quantifier": "for all declarations (all finite sets of distinct tags), all inputs", "why_tests_cant": "Quantifies over all enum declarations.", "anchors": ["src/adt.rs: cstyle!", "src/parse/mod.rs: Parser::take_tagword", "src/parse/error.rs: TagValidator"]}
{"id": "C29", "title": "Data-carrying enums dispatch on the tag", "statement": "An enum declared with data! encodes the tag followed by the payload of that variant and decoding inverts it; unknown tags are rejected; the payload codec used is always the one declared for the tag.", "quantifier": "for all declarations, all payload codecs that round-trip, all values", "why_tests_cant": "Quantifies over all enum declarations and payload types.", "anchors": ["src/adt.rs: data!"]}
{"id": "C30", "title": "Derived records encode fields in order and round-trip", "statement": "A struct deriving Encode/Decode encodes as the concatenation of its fields in declaration order and decoding gives back the same field values, provided each field codec round-trips with arbitrary trailing bytes (the last one only needs the end of the window).", "quantifier": "for all lists of field codecs, all values", "why_tests_cant": "Quantifies over all record types.", "anchors": ["encode_derive/src/lib.rs", "decode_derive/src/lib.rs"]}
{"id": "C31", "title": "Ranged integers stay in range", "statement": "RangedInt<I,MIN,MAX>: decoding accepts exactly the encodings of in-range values, conversions from i32 accept exactly MIN..=MAX and to_i32 inverts them, all for well-formed ranges.", "quantifier": "for all MIN<=MAX in the OCaml int range, all backers, all numbers, all byte strings", "why_tests_cant": "Const-generic bounds give unboundedly many types; off-by-offset bugs only for MIN>0.", "anchors": ["src/int.rs: RangedInt", "src/error.rs: BoundsError::restrict"]}
{"id": "C32", "title": "Ranged floats stay in range", "statement": "RangedFloat<MIN,MAX> decodes a double iff MIN <= x <= MAX in IEEE order; NaN is always rejected; the decoded bit pattern is preserved exactly.", "quantifier": "for all 2^64 bit patterns of the value and of both bounds", "why_tests_cant": "2^192 combinations incl. NaN, signed zeros, infinities.", "anchors": ["src/float.rs: RangedFloat", "src/error.rs: BoundsError::restrict_float"]}
{"id": "C33", "title": "Hex strings denote bytes exactly", "statement": "Converting bytes to a HexString yields two lowercase hex digits per byte and converting back gives the same bytes; a text is accepted iff it has even length and consists only of hex digits, and then denotes the bytes obtained digit pair by digit pair; rejection never panics.", "quantifier": "for all byte strings and all texts", "why_tests_cant": "All texts including non-ASCII.", "anchors": ["src/hexstring.rs: hex_of_bytes, bytes_of_hex, HexString"]}
{"id": "C34", "title": "Comparing a hex string with a text is comparing the denoted bytes", "statement": "A HexString equals a text iff the text is a valid hex spelling (any case) of the same bytes.", "quantifier": "for all byte strings and all texts", "why_tests_cant": "Case-insensitivity and digit validation over all texts.", "anchors": ["src/hexstring.rs: eq_hex_bytes, PartialEq impls"]}
{"id": "C35", "title": "All output targets agree", "statement": "Encoding a value into a plain byte vector, the strict builder, the memo builder, a hex string or the counting sink produces the same bytes (the sink: no bytes) and the same returned count; previously written content is never altered.", "quantifier": "for all schema types, all values, all previous target contents", "why_tests_cant": "Quantifies over types, values and five target implementations.", "anchors": ["src/conv/target.rs: Target", "src/builder/strict.rs", "src/builder/memo.rs", "src/hexstring.rs: impl Target"]}
{"id": "C36", "title": "write_to returns the number of bytes it appended", "statement": "write_to appends bytes to the target and returns exactly how many; encode, to_bytes, enc_len and length agree with that.", "quantifier": "for all schema types and all values", "why_tests_cant": "Induction over all types.", "anchors": ["src/conv/mod.rs: Encode, EncodeLength"]}
{"id": "C37", "title": "Estimated length equals encoded length", "statement": "For every type with a length estimate, estimate() equals the encoded length, and a statically known length is the encoded length of every value.", "quantifier": "for all schema types and all well-formed values", "why_tests_cant": "The estimate is a separate implementation from the encoder for every combinator.", "anchors": ["src/conv/len.rs: Estimable, FixedLength", "estimable_derive/src/lib.rs", "src/schema.rs", "src/dynamic.rs", "src/seq"]}
{"id": "C38", "title": "Segmented buffers keep their books balanced", "statement": "After any sequence of public operations on SplitVec values the sum of the span lengths equals the number of stored elements, and iterating over the spans from either end never panics and yields slices whose concatenation is the contents.", "quantifier": "for all finite operation sequences and all contents", "why_tests_cant": "Invariant over all call histories.", "anchors": ["src/internal/splitvec.rs: SplitVec, SpanBuffer, Spans"]}
{"id": "C39", "title": "Segmented buffer operations act on lists of segments", "statement": "SplitVec operations implement the abstract type 'list of closed segments plus an optional open segment': pushing extends the open segment, split closes it, concat closes it and appends the other's segments and leaves the other empty, contents is concatenation.", "quantifier": "for all finite operation sequences and all contents", "why_tests_cant": "Refinement over all call histories.", "anchors": ["src/internal/splitvec.rs"]}
{"id": "C40", "title": "MemoBuilder records the write segmentation without changing the output", "statement": "However a MemoBuilder is made and used (any sequence of pushes, io writes, flushes and resolves), finalizing it gives the bytes in the order written, segmented into the runs between flushes, with segment lengths that add up to the total; every call returns the number of bytes it added; rendering shows all the bytes in order.", "quantifier": "for all finite operation sequences", "why_tests_cant": "Invariant over all call histories.", "anchors": ["src/builder/memo.rs: MemoBuilder, MemoBuffer"]}
{"id": "C41", "title": "Clean-up accounts for every unread byte", "statement": "cleanup on any parser state returns exactly the unread bytes in order, always terminates, closes all windows, and afterwards nothing is readable; it reports an empty leftover only if nothing was unread.", "quantifier": "for all reachable parser states", "why_tests_cant": "A loop over an arbitrary stack of windows.", "anchors": ["src/parse/mod.rs: cleanup implementations, LeftoverState"]}
{"id": "C42", "title": "Collecting into a bounded sequence keeps the elements", "statement": "Collecting or extending a FixSeq/LimSeq from an iterator whose elements fit the bound stores exactly these elements in order; exceeding the bound panics.", "quantifier": "for all N, all iterators, all previous contents", "why_tests_cant": "Iterator consumption order is easy to get wrong; holds for lengths tests do not try.", "anchors": ["src/seq/fix.rs: Extend, FromIterator", "src/seq/lim.rs: Extend, FromIterator"]}
{"id": "C43", "title": "Complete-parse checking rejects exactly the inputs with trailing bytes", "statement": "With the complete-parse feature, decode succeeds iff the value parses and consumes all the input; without it, trailing bytes are ignored; in both cases the value is the same.", "quantifier": "for all schema types, all inputs, all parsers", "why_tests_cant": "Needs characterisation of parse and cleanup over all inputs.", "anchors": ["src/conv/mod.rs: Decode::try_decode", "src/parse/mod.rs: cleanup"]}
{"id": "C44", "title": "Skipping is reading and discarding", "statement": "skip_exactly(n) has the same effect on the parser as consume(n) with the result dropped; skip(n) skips min(n, remainder) and returns that count; skip_dynamic skips exactly what parsing the dynamic value would consume; fast_kv_search finds the first entry with the wanted key.", "quantifier": "for all reachable states, all n, all key codecs and predicates", "why_tests_cant": "Equivalence of two code paths in all states.", "anchors": ["src/parse/mod.rs: skip, skip_exactly, ParserExt::skip_dynamic, ParserExt::fast_kv_search"]}
{"id": "C45", "title": "Length prefixes are never truncated", "statement": "Encoding a Dynamic value whose payload is longer than its prefix type can express never yields output: it panics; whenever output is produced the prefix decodes to the payload's exact length.", "quantifier": "for all payloads of all sizes, all prefix widths", "why_tests_cant": "Sizes at and beyond 2^30 cannot be allocated in tests.", "anchors": ["src/dynamic.rs: Dynamic::write_to, LenPref::MAX_LEN"]}
{"id": "C46", "title": "Decoding untrusted bytes always returns", "statement": "For every schema type without zero-width sequence elements, decoding arbitrary bytes terminates with a value or an error: no panic, no undefined behaviour, no infinite loop.", "quantifier": "for all schema types, all byte strings, both build profiles", "why_tests_cant": "Robustness over the whole input space; fuzzing samples only.", "anchors": ["src/conv/mod.rs: Decode::try_decode", "src/dynamic.rs", "src/seq/mod.rs", "src/internal/offset.rs"]}
{"id": "C47", "title": "Decoding then encoding is idempotent (canonicalisation)", "statement": "If decoding bytes succeeds with value v, then v can be encoded, and decoding that encoding gives v again; for schema types without redundant encodings (no zarith, padding, text) the encoding is exactly the consumed bytes.", "quantifier": "for all schema types, all byte strings", "why_tests_cant": "Quantifies over all accepted inputs of all types.", "anchors": ["src/conv/mod.rs: Encode, Decode"]}
{"id": "C48", "title": "Encodings are prefix-free / injective", "statement": "Two different well-formed values of the same well-composed schema type have different encodings; for self-delimiting types no encoding is a proper prefix of another one's (well-composed: variable-length parts come last in their window or are length-prefixed, sequence elements are self-delimiting and never empty, Nullable is not applied to types with empty encodings, enum tags are distinct and fit).", "quantifier": "for all well-composed schema types, all pairs of values", "why_tests_cant": "Quadratically many pairs over infinite domains.", "anchors": ["src/conv/mod.rs: Encode"]}
{"id": "C49", "title": "Parsing is local: bytes after the end of what is read do not matter", "statement": "If a self-delimiting codec successfully decodes a value from an input, it decodes the same value, leaving the same unread suffix extended, when arbitrary bytes are appended to the input.", "quantifier": "for all schema types, all inputs, all suffixes", "why_tests_cant": "Quantifies over all continuations.", "anchors": ["src/conv/mod.rs: Decode::parse", "src/parse/mod.rs"]}
{"id": "C50", "title": "Ranged integer constants and conversions denote the numbers they are named after", "statement": "For RangedInt<I,MIN,MAX>, min_val() stands for MIN, max_val() for MAX, default() for the number of the range closest to zero, and converting a value to another integer type gives the number it stands for (or fails if that number does not fit).", "quantifier": "for all well-formed ranges MIN<=MAX, all backing types, all values", "why_tests_cant": "Ranges are type parameters: a test fixes finitely many instances, and the defect only shows for a sign combination (MIN>0) that the test-suite does not instantiate.", "anchors": ["src/int.rs: RangedInt::{min_val,max_val}, impl Default, impl From/TryFrom for RangedInt"]}
{"id": "C51", "title": "Everything that is encoded decodes back", "statement": "For every well-composed schema type, encoding a well-formed value and decoding the bytes gives the value back on every parser, wherever the bytes stand in the input, and leaves exactly what follows them; try_decode of the encoding returns the value (well-composed: variable-length parts come last in their window or are length-prefixed, sequence elements are self-delimiting and never empty, Nullable is not applied to types with empty encodings, enum tags are distinct and fit).", "quantifier": "for all well-composed schema types (arbitrary nesting of the library's codecs, cstyle!/data! enums and derived records), all well-formed values, all parsers and parser states, all build configurations", "why_tests_cant": "Quantifies over all types that can be built from the combinators, not over a list of types.", "anchors": ["src/conv/mod.rs: Encode, Decode", "src/lib.rs: cstyle!, data!", "encode_derive/src/lib.rs", "decode_derive/src/lib.rs"]}
{"id": "C52", "title": "Recursive types behave like their finite unfoldings", "statement": "For types defined by (mutual) recursion through AutoBox: every value has one encoding, the same on every target and independent of how the type is looked at; encoding a well-formed value and decoding gives it back on every parser; decoded values can be encoded again; and if each recursive occurrence is reached only after a byte has been read, decoding any input ends with a value or an error.", "quantifier": "for all families of mutually recursive type definitions (any schemas, any number of types), all values of any depth, all inputs, all parsers and targets", "why_tests_cant": "Values have unbounded depth, and termination of the recursive decoder on every input is a statement about an unbounded recursion.", "anchors": ["src/autobox.rs: AutoBox, impl Encode/Decode/Estimable", "src/lib.rs: data!", "encode_derive/src/lib.rs", "decode_derive/src/lib.rs"]}
{"id": "C53", "title": "length_prefix foretells the encoding", "statement": "Dynamic::length_prefix returns the number of payload bytes exactly if the value can be encoded, and the encoding then starts with a prefix announcing that number; if the payload is too long for the prefix type it returns the error with the limit and the actual length, exactly in the cases where encoding would panic for that reason. It never fails its own debug assertion.", "quantifier": "for all payload types, all values, all three prefix types, both build profiles (length estimates not trusted)", "why_tests_cant": "Payload lengths are unbounded and the boundary differs per prefix type; the two routes (estimating and encoding) must agree on every value.", "anchors": ["src/dynamic.rs: Dynamic::length_prefix", "src/int.rs: TryFrom for RangedInt", "src/error.rs: WidthError"]}
{"id": "C54", "title": "Arbitrary-precision numbers convert to machine integers exactly when they fit", "statement": "Converting N to u8..u64, or Z to i8..i64 and u8..u64, succeeds exactly if a value of the target type stands for the same number, and then gives that value.", "quantifier": "for all natural numbers / integers and all target types", "why_tests_cant": "The source numbers are unbounded.", "anchors": ["src/zarith.rs: TryFrom<N>, TryFrom<Z>"]}
{"id": "C55", "title": "The memoizing parser logs what was read", "statement": "The line printed by MemoParser::dump_state, and with every failed read, shows in order exactly the pieces of input read or skipped so far, one per successful operation, and together they are the input up to the cursor; printing it never panics.", "quantifier": "for all inputs and all sequences of parser operations", "why_tests_cant": "Operation sequences are unbounded and interleave windows, failures and skips.", "anchors": ["src/parse/mod.rs: memoparser::MemoParser, eprint_munches!, dump_state, skip, skip_exactly", "src/internal/splitvec.rs: Display for SplitVec<u8>"]}
{"id": "C56", "title": "A recursive type's code is its definition calling itself", "statement": "For every family of mutually recursive types (through AutoBox), a value is exactly a value of the type's definition with values of the recursive types as its parts, and encoding, measuring and decoding do what the definition says with the recursive mentions replaced by calls of the same code. This determines the code: any other code satisfying these equations writes and measures the same and decodes the same wherever decoding ends, hence everywhere if recursion only happens after something has been read.", "quantifier": "all families of recursive definitions, all values, all targets, all parsers and parser states", "why_tests_cant": "Recursion depth is unbounded; a test sees finitely many nestings of one type.", "anchors": ["src/autobox.rs: AutoBox, impl Encode/Decode/Estimable for AutoBox<T>", "src/adt.rs: data!", "decode_derive/src/lib.rs", "encode_derive/src/lib.rs"]}
{"id": "C57", "title": "Decoding never reads outside of the input", "statement": "Decoding untrusted bytes does nothing undefined: no unsafe indexing goes out of bounds, no byte outside of the buffer is read, whether decoding succeeds, fails or panics, and also while a complete parse is checked at the end.", "quantifier": "for all types built from the crate's combinators including recursive ones, all inputs, all parsers, all entry points, all builds", "why_tests_cant": "Types and inputs are unbounded, and an out-of-bounds read need not be visible in the result of a test.", "anchors": ["src/parse/buffer.rs: get_slice_unchecked, get_byte_unchecked", "src/parse/mod.rs: ByteParser, MemoParser, SliceParser (split_at_unchecked)", "src/conv/mod.rs: try_decode, decode, decode_memo"]}
{"id": "C58", "title": "Hex text is a faithful transport", "statement": "Encoding a value and printing the result as hex yields one and the same lowercase text with either builder and with HexString; decoding any text that denotes the encoding yields the value again. For types without redundant encodings and with complete parses checked, a lowercase text is decoded to a value exactly if the value is encoded as that text, so the check of the executable passes exactly for pairs of a value and its encoding.", "quantifier": "all types built from the crate's combinators, all values, all texts, both checked parsers and both panicking entry points; with enc_len_estimable_override: values without an N of value 0 under a length prefix", "why_tests_cant": "The executable checks two texts of one type; texts, types and values are unbounded.", "anchors": ["src/main.rs: check", "src/builder/mod.rs: Builder::into_hex", "src/hexstring.rs: hex_of_bytes", "src/conv/mod.rs: Decode::decode, decode_memo, Encode::encode", "src/parse/buffer.rs: TryIntoParser for text"]}
{"id": "C59", "title": "Recursion is no deeper than the input is long", "statement": "Decoding a value of a recursive type (through AutoBox) nests calls of its code at most one deeper than there are bytes to read, whether decoding succeeds or fails, provided recursion happens only after something has been read; decoded values are no deeper either. Nothing else limits the depth: an input of 2n bytes can nest more than n calls.", "quantifier": "all families of recursive types guarded in this sense, all inputs, all parsers, all builds; for the second half every n", "why_tests_cant": "Depth grows with the input without bound; a test runs at some depths and observes a stack overflow only if it happens to exceed the stack.", "anchors": ["src/autobox.rs: impl Decode for AutoBox<T>, U8Seq example", "decode_derive/src/lib.rs", "src/adt.rs: data!"]}
{"id": "C60", "title": "A parser is an iterator over the bytes of its window", "statement": "Calling next on a parser k times yields the first k bytes of the innermost window and then None as often as one likes; afterwards the parser holds exactly the rest of that window and all outer windows as they were. Collecting it yields the window and leaves it empty, without closing it.", "quantifier": "all buffers, all sequences of operations before, all k, all three parsers", "why_tests_cant": "Number of calls, window nesting and earlier operations are unbounded; tests iterate over a fresh parser.", "anchors": ["src/parse/mod.rs: impl Iterator for ByteParser, SliceParser, MemoParser"]}
{"id": "C61", "title": "A MemoBuilder partitions an encoding by its structure", "statement": "The pieces recorded by a MemoBuilder make up the encoding. Numbers, texts, byte strings and plain tags are one piece each; records and sequences are the pieces of their parts in order; a length prefix and the tag of an enum are a piece in front of those of the payload; padding is a piece behind them; boxes, virtual padding and optional fields without tag add none. The tag of Some is put in front of the first piece of a payload that starts with bytes. Values written to the same builder one after the other never share a piece.", "quantifier": "all types built from the combinators including recursive ones, all values, all lists of values, all feature sets", "why_tests_cant": "Types, values and nesting are unbounded, and the bytes are the same whatever the partition is, so that a round-trip test cannot see an error.", "anchors": ["src/conv/target.rs: Target::resolve_zero", "src/builder/memo.rs", "encode_derive/src/lib.rs", "src/seq", "src/schema.rs", "src/conv/mod.rs: impl Encode for Option<T>"]}
{"id": "C62", "title": "Decoding takes a linear number of parser calls", "statement": "For every type there are two constants A and B such that decoding makes at most A + B times the number of bytes read calls to the parser when it succeeds, and at most A + B times the length of the window when it fails. The same holds for every finite family of recursive types that recurse only after reading something. Counting does not change the outcome. The bound is sharp up to constants (Sequence<u8> takes 2n+1 calls on n bytes), and the constants have to depend on the type.", "quantifier": "all types built from the combinators including recursive ones, all inputs, all three parsers, all parser states, all feature sets", "why_tests_cant": "Cost is not observable in a unit test, and inputs on which nested sequences, recursion or padding repeat work cannot be enumerated.", "anchors": ["src/conv/mod.rs: Decode", "src/seq/mod.rs: Sequence::parse", "src/seq/fix.rs", "src/seq/lim.rs", "src/parse/mod.rs: Parser"]}
{"id": "C63", "title": "invalid_range_checking rejects exactly the unsound range types", "statement": "With the feature, every function of RangedInt<I, MIN, MAX> and its codec behave as without it if -2^30 <= MIN <= MAX <= 2^30-1. For all other bounds the checked functions panic on every argument, encoding panics on every target, and decoding panics on every input that holds the bytes of I and fails with the usual error on shorter ones. What to_i32 returns lies in [MIN, MAX] and in the 31-bit range. Without the feature the functions documented to check the range do not; default, min_val and max_val never check. For composite types the outcome with the feature is the outcome without it, or a panic, and it is a panic exactly if the value that is encoded or decoded has an integer of an unsound range inside.", "quantifier": "all backers, all bounds, all types with ranged integers inside, all values, all inputs, all parsers and targets, both build profiles", "why_tests_cant": "Bounds are type parameters: a test sees only the instances it names.", "anchors": ["src/int.rs: RangedInt::SANITY, try_from_underlying, try_from_i32, to_underlying, to_i32, Encode, Decode, Default, min_val"]}
{"id": "C64", "title": "Comparing values agrees with comparing encodings", "statement": "For every type, == and partial_cmp say the same about equality, partial_cmp is antisymmetric and transitive, and equal values compare alike with everything. A value differs from itself only if a NaN occurs in it, and only NaNs make values incomparable. For types without doubles == is identity, the order is total, and (if the type is uniquely decodable and the values well-formed) two values are equal exactly if their encodings are. What is decoded from the encoding of a value is equal to it unless there is a NaN; with RangedFloat in place of f64 there never is. Zeros of different sign are equal with different encodings.", "quantifier": "all types built from the combinators, families of recursive types among them, all values, all feature sets; with enc_len_estimable_override: values without an N of value 0 under a length prefix", "why_tests_cant": "The laws relate pairs and triples of values of arbitrary composite types; round-trip tests use == themselves and so cannot see where it is too coarse.", "anchors": ["src/dynamic.rs: impl PartialEq/PartialOrd for Dynamic", "src/adt.rs: data!, cstyle!", "src/float.rs: RangedFloat", "src/seq/*.rs, src/schema.rs, src/fixed.rs, src/zarith.rs, src/int.rs: derives"]}
{"id": "C65", "title": "What equality of builders means", "statement": "However they came about: StrictBuilders are equal exactly if the same bytes were written and are ordered like the bytes. SplitVecs are equal exactly if they have the same closed segments and the same open segment or none; MemoBuilders exactly if the same runs were written and in both or neither the last run is open; finalized MemoBuffers exactly if the runs are the same. MemoBuilders with different bytes are ordered like the bytes, and the order is total and agrees with ==. Encodings of well-formed values of a uniquely decodable type are equal as MemoBuilders exactly if they are as StrictBuilders and exactly if the values are. Builders that display and finalize alike may differ.", "quantifier": "all ways of making builders, all sequences of operations, all types and values; with enc_len_estimable_override: values without an N of value 0 under a length prefix", "why_tests_cant": "Equality is derived from the representation (including a cached sum); that no two histories lead to different representations of the same segments is an invariant of all histories.", "anchors": ["src/builder/memo.rs: MemoBuilder, MemoBuffer", "src/builder/strict.rs: StrictBuilder", "src/internal/splitvec.rs: SpanBuffer, SplitVec"]}
{"id": "C66", "title": "Safe buffer accessors stay inside the buffer", "statement": "The accessors of SliceBuffer and VecBuffer that are not marked unsafe never read outside the buffer: split, take and get_slice return exactly the bytes asked for or panic exactly if the buffer does not have them, cut_first fails exactly on the empty buffer, get_byte returns the byte at an index inside the buffer and panics for every other index.", "quantifier": "all buffers, all indices and lengths, debug and release builds", "why_tests_cant": "Reading out of bounds through get_unchecked usually goes unnoticed in tests; whether the assertions cover all arguments (including sums that wrap) is a statement about all of them.", "anchors": ["src/parse/buffer.rs: SliceBuffer::{cut_first, split, take}", "src/parse/buffer.rs: VecBuffer::{get_byte, get_slice}"]}
{"id": "C67", "title": "Decoded values are at most linear in the bytes read", "statement": "For every type there are constants A and B such that every decoded value has at most size A + B * c, where c is the number of bytes read for it and the size counts scalars, elements, variants and boxes, the bytes of strings and the bits of big numbers. The same holds for recursive types in which recursion happens only after something has been read. In particular the value that decode returns is at most linear in the input. The bound cannot be improved to the number of bytes: strings can grow threefold, and FixSeq<(), N> yields N elements without reading anything.", "quantifier": "all types built from the combinators, all recursive types as described, all inputs, all three parsers, all feature sets", "why_tests_cant": "Amplification (small inputs decoding to huge values) is a matter of the worst input for each of infinitely many types.", "anchors": ["src/conv/mod.rs: Decode", "src/seq/*.rs", "src/schema.rs", "src/dynamic.rs", "src/zarith.rs", "src/autobox.rs"]}
{"id": "C68", "title": "A refused number is reported with the bound it violates", "statement": "When a RangedInt or RangedFloat refuses a number - in decoding, try_from_underlying, try_from_i32, TryFrom, get_validated or conversion from f32/f64 - the BoundsError names the violated bound and the offending value: Underflow with the minimum if it is below, Overflow with the maximum if it is above, InvalidBounds if the bounds themselves are inverted (or NaN), IllegalNegative if a distance from a positive minimum is negative; NaN counts as below the minimum. Exactly one error applies.", "quantifier": "all backers, all bounds, all values (all bit patterns for floats), all three parsers", "why_tests_cant": "The error depends on an order of comparisons over four unbounded parameters, including inverted bounds and NaN patterns; tests sample a few.", "anchors": ["src/error.rs: BoundsError::restrict, restrict_float", "src/int.rs: RangedInt", "src/float.rs: RangedFloat"]}
{"id": "C69", "title": "Sequences that violate their length bound do not get through", "statement": "A FixSeq<T, N> holding fewer than N elements (TryFrom<Vec<T>> makes them) or a LimSeq<T, N> holding more than N (from_vec_unchecked makes them) is refused when it is encoded, as the documentation says; at the latest it is refused when the encoding is decoded, with the violated bound in the error. What an encoded FixSeq or LimSeq decodes to is the same sequence and has an admissible length. The length estimate of a FixSeq equals the number of bytes written.", "quantifier": "all element types whose values are read back from their non-empty encodings, all N, all sequences, all three parsers", "why_tests_cant": "The bound and the number of elements range over all naturals, and the claim is about every encodable sequence, not only those that constructors are documented to make.", "anchors": ["src/seq/fix.rs:62-69", "src/seq/lim.rs:80-88", "src/seq/fix.rs: FixSeq: Encode, Decode, Estimable", "src/seq/lim.rs: LimSeq: Encode, Decode"]}
{"id": "C70", "title": "Bounded sequences do not depend on how they are stored", "statement": "FixSeq and LimSeq behave the same whether elements are kept in a Vec or, with the features arrayvec_fixseq/arrayvec_limseq, in an ArrayVec: every sequence of constructor and mutator calls gives the same answers (success, LengthError, panic), lengths and contents, and decoding gives the same result. The unsafe push_unchecked in try_push and the unsafe from_vec_unchecked in from_vec and TryFrom<Vec> are guarded so that nothing is ever written beyond the array or read from uninitialized slots.", "quantifier": "all bounds N, all element types, all safe constructors, all finite sequences of try_push, extend and assignments, all iterators (also those that resume after None), both profiles, all parsers and element decoders", "why_tests_cant": "The equivalence is over all call histories and arbitrary iterators, and undefined behaviour of an unguarded write is not observable by a test that happens to pass.", "anchors": ["src/seq/boundedseq_impl.rs:47-59", "src/seq/fix.rs", "src/seq/lim.rs", "Cargo.toml: arrayvec_fixseq, arrayvec_limseq"]}
{"id": "C71", "title": "Values can be keys of hash maps", "statement": "Values of hashable types that compare equal with == make the same sequence of calls on any Hasher and so have the same hash. Values that are not equal feed different bytes to it, and no value feeds a proper beginning of what another value of the type feeds, provided that the tags of the data! enums in the type are distinct and fit their width. What a key can be borrowed as (Dynamic<S,T> as T, FixedBytes<N> as [u8; N] and [u8]) hashes and compares like the key.", "quantifier": "all types built from the library's constructors without floating-point numbers, families of recursive types among them, all pairs of values, all hashers, both byte orders", "why_tests_cant": "Agreement of Hash with Eq is a relation between two implementations over all pairs of values and all hashers; prefix-freeness concerns all pairs of values and all continuations.", "anchors": ["src/adt.rs:48", "src/adt.rs:315-331", "src/dynamic.rs:164-188", "src/fixed.rs:29", "src/fixed.rs:189-199", "src/seq/mod.rs:75", "src/zarith.rs:37", "src/zarith.rs:167", "src/schema.rs:116", "src/schema.rs:247", "src/schema.rs:363"]}
{"id": "C72", "title": "Error messages identify the error", "statement": "The Display text of a ParseError or DecodeError determines which error it is and every number, byte string and length in it, and for a bad tag also the type name. Two errors print alike exactly if they are equal, except that the width of a tag and the list of valid tags, the difference between an integer and a float printing the same, and the string refused by a hex conversion (which Debug does print) are not shown. The text of a LeftoverState tells whether windows were closed and which bytes were left in each, and printing one never panics.", "quantifier": "all pairs of error values other than GenericError (whose text is the caller's), all contents of the texts supplied by the standard library, all sequences of calls building a LeftoverState", "why_tests_cant": "That no two of infinitely many errors share a text is a statement about all pairs; a test compares a few messages with literals.", "anchors": ["src/parse/error.rs:60-69", "src/parse/error.rs:156-205", "src/parse/error.rs:242-265", "src/parse/error.rs:310-321", "src/parse/error.rs:409-437", "src/parse/error.rs:739-753", "src/error.rs:35-54", "src/error.rs:74-129", "src/error.rs:267-298", "src/conv/error.rs:42-66", "src/parse/mod.rs:645-658"]}
{"id": "C73", "title": "Targets keep their documented equations, and those that do receive the encoding", "statement": "push_one answers 1; push_many(arr) and push_all(&arr) are the same, in value and effect, as pushing the bytes one after the other with push_one and adding up the answers; anticipate and resolve change nothing visible in the contents. On any target keeping these equations, user-defined ones included, write_to panics exactly if to_bytes does and otherwise returns the length of the encoding and has the effect of the bytes of the encoding pushed one by one; encode gives what those bytes make of a fresh target.", "quantifier": "all targets of the library in all states, all byte strings; all user-defined targets with any notion of visible state; all types (recursive ones too), values and builds", "why_tests_cant": "Quantifies over implementations of a trait that do not exist yet, and over all values written to them.", "anchors": ["src/conv/target.rs:12-97", "src/conv/target.rs:112-166", "src/builder/strict.rs:57-87", "src/builder/memo.rs:152-203", "src/hexstring.rs:472-500", "src/conv/mod.rs:77", "src/conv/mod.rs:100-104"]}
{"id": "C74", "title": "User-defined parsers decode like the library's", "statement": "Any implementation of Parser whose answers to all well-bracketed sequences of calls are those of a windowed cursor over the input decodes every type as ByteParser does: the same value with the same bytes left to read, or an error of the same class where ByteParser fails, or neither returns. It gets back every well-formed value from its encoding.", "quantifier": "all parsers indistinguishable from the windowed cursor by well-bracketed calls with arguments up to isize::MAX + 1, all inputs, all types on which the library's own parsers agree (C09: no VPadded in release builds), all recursive type definitions that read before they recurse; with enc_len_estimable_override: values without an N of value 0 under a length prefix", "why_tests_cant": "Quantifies over implementations of a trait that do not exist yet; tests run the three parsers there are.", "anchors": ["src/parse/mod.rs:82-169", "src/parse/mod.rs:402-406", "src/conv/mod.rs:200-330", "src/parse/byteparser.rs", "src/autobox.rs:23-36"]}
{"id": "C75", "title": "Values can be printed for debugging, and the text identifies the value", "statement": "Printing a value with {:?} panics exactly if it holds a Dynamic whose contents cannot be encoded and lengths are not estimated; what can be encoded can be printed, and what was decoded can be printed. A Dynamic is shown with the number of bytes its contents encode to, also if they are too long for its prefix. Different values of a type without doubles are printed differently.", "quantifier": "all types built from the library's codecs, all values, all builds, all decodable inputs, all names of user-defined types", "why_tests_cant": "Debug calls enc_len, which encodes: whether it panics depends on all parts of arbitrarily nested values; that texts differ is about all pairs of values.", "anchors": ["src/dynamic.rs:218-228", "src/dynamic.rs:424-428", "src/zarith.rs:55-59", "src/zarith.rs:185-189", "src/autobox.rs:204-208", "src/adt.rs:332-340", "src/conv/len.rs"]}
{"id": "C76", "title": "A message that was cut off is reported as cut off", "statement": "If an encoding of a type that ends by itself is cut off anywhere, decoding what is there never yields a value: it reports that input is missing - a read or window beyond the end, a number without its last byte, or too few elements - and the number of bytes said to be missing is at least one and at most the number that is missing (ByteParser and MemoParser may panic in debug builds when a length prefix announces more than there is). So a value is decoded from a stream as soon as, and not before, its last byte has arrived. For a type that takes what it finds the cut may go unnoticed, but then nothing is left over.", "quantifier": "all types built from the library's codecs without VPadded outside of Dynamic, recursive ones included, all valid values, all places to cut, all three parsers; with enc_len_estimable_override: values without an N of value 0 under a length prefix", "why_tests_cant": "Messages of unboundedly many types and values can be cut at any place, and no decoder inside may mistake the end of the input for invalid contents or for the end of the value.", "anchors": ["src/parse/mod.rs: consume, set_fit", "src/conv/mod.rs: Decode::try_decode", "src/parse/error.rs: WindowError::ConsumeWouldExceedLimit"]}
{"id": "C77", "title": "Release builds do what debug builds do, wherever those do not panic", "statement": "Overflow checks and debug assertions are the only difference between the builds: whatever is called on a parser in whatever state, and whatever is decoded by any entry point, a debug build panics or gives exactly the result of the release build - value, error with its contents, state of the parser, or undefined behaviour. Encoding is the same in both builds.", "quantifier": "all states of the three parsers, all sequences of parser calls with all arguments, all types, recursive ones included, all inputs of any length, all features, all values and all targets", "why_tests_cant": "Tests run in one build; that the other does the same has to hold for inputs and states nobody tries, in particular where arithmetic overflows.", "anchors": ["src/internal/offset.rs: ContextOffset", "src/dynamic.rs: VPadded::parse", "src/parse/mod.rs: Parser implementations", "src/conv/mod.rs: try_decode, decode, decode_memo"]}
{"id": "C78", "title": "Cargo features change only what they are for", "statement": "check_padding turns some decodings into an error that reports padding with a byte that is not zero, and changes nothing else; check_complete_parse turns some successful calls of try_decode into an error that reports left-over bytes, and changes nothing else; enc_len_estimable_override changes no decoding; implicit_hexstring changes only the treatment of text inputs; neither of the two checks changes what is written.", "quantifier": "all types, all inputs, all parsers, both builds, all combinations of the other features", "why_tests_cant": "A test suite is compiled with one set of features, and cannot compare the behaviour of two sets on all inputs.", "anchors": ["src/schema.rs: Padded::parse", "src/conv/mod.rs: try_decode", "src/conv/mod.rs: EncodeLength", "src/parse/buffer.rs: TryIntoBuffer"]}
{"id": "C79", "title": "Widening a type keeps its messages", "statement": "When a later version of a type has more constructors (in any order), larger numeric ranges or larger limits on lengths, and is otherwise the same, then every value of the old type is encoded as before by the new one, every message the old decoder accepts is accepted by the new one as the same value, every other message gets the same error from both unless the old decoder reports an unknown tag, a number out of range or a list that is too long, and different values stay different. An old decoder that gets a message of the new version returns the value that was sent or makes such a report. (Extending a range downwards whose least number is positive is no widening: messages change their meaning.)", "quantifier": "all pairs of types one of which is wider than the other, recursive families included, all values, all targets, all parsers in any state, all inputs, all builds and features; with enc_len_estimable_override: values without an N of value 0 under a length prefix", "why_tests_cant": "It relates two versions of arbitrary types on all inputs, of which a test suite has at most one.", "anchors": ["src/adt.rs: cstyle!, data!", "src/int.rs: RangedInt", "src/float.rs: RangedFloat", "src/seq/lim.rs: LimSeq", "src/parse/mod.rs: take_tagword"]}
{"id": "C80", "title": "Rearranging a type keeps its wire format", "statement": "Two descriptions of a type that differ only in how they are put together have the same messages: leaving out AutoBox, Padded by 0 bytes, structs of one field and fields of type (); writing the fields of a struct field in its place; listing the arms of an enum in another order; Vec<u8>, Sequence<u8> and Bytes; bool as an enum with tags 0 and 255; Option as an enum with an empty arm 0 and an arm 255; Option<()> as bool; a payload-free enum by either macro; and a ranged integer whose range is that of its representation. Any number of such changes anywhere inside a type gives a one-to-one correspondence of values such that corresponding values have the same bytes and lengths (or encoding both panics), and an input is accepted as a value of the one type exactly if it is accepted as the corresponding value of the other. (VPadded by 0 bytes is no such change.)", "quantifier": "all pairs of types related by any number of the listed changes at any depth, recursive families included, all values, all inputs, all three parsers, all builds and features (for decoding: types without sequences of elements that may be empty); with enc_len_estimable_override: well-formed values", "why_tests_cant": "It relates two arbitrary type descriptions on all values and all inputs; there are infinitely many pairs.", "anchors": ["src/autobox.rs: AutoBox", "src/adt.rs: cstyle!, data!, record!", "src/schema.rs: Padded", "src/seq/mod.rs: Sequence", "src/schema.rs: Bytes", "src/prim.rs: Option, bool"]}
{"id": "C81", "title": "Changing a part of a value changes the bytes of this part only", "statement": "If parts of a value, anywhere inside it, are replaced by others whose encodings are as long (possibly of another type), the new encoding is the old one with the bytes of these parts overwritten, in order; all other bytes, length prefixes included, stay in place. So one can overwrite a part in an encoded message, and every parser decodes the result to the changed value. Where no length prefix is around a part, its length may change too. With a length prefix around, it may not.", "quantifier": "all types with any choice of parts, all pairs of values that agree outside of the parts, all parsers, all feature sets", "why_tests_cant": "Each test patches one part of one message of one type; the claim is about every position in every type, including nested prefixes, optional parts, enums and sequences.", "anchors": ["src/conv/mod.rs Encode::write_to_vec", "src/dynamic.rs Dynamic::write_to (enc_len of the contents is taken anew for each encoding)", "src/schema.rs Padded, Nullable", "src/seq/mod.rs Sequence (AsMut, DerefMut)", "src/adt.rs data!"]}
{"id": "C82", "title": "An error of decoding is the fault of a part of the type and of a stretch of the input", "statement": "When decoding fails, some part of the type and some stretch of the readable bytes are to blame, and what the error says about them is true: so many bytes are wanted and only so many are left there, so many are left over at the end of a window, this tag is none of the valid tags (which are listed), this number violates this bound of this range, these padding bytes are not zero, these bytes of a natural or integer have no end, the list has too few or too many elements. In particular errors that stand for bugs (positions beyond the end, windows closed twice, failed conversions) are never reported, and 'no valid tags' only for enums without variants.", "quantifier": "all types (also recursive ones), all inputs, all parsers in any state with any open windows, all feature sets", "why_tests_cant": "A test provokes an error it has thought of; that no input whatsoever of any type makes a parser report something else, or something false, is a statement about all of them.", "anchors": ["src/parse/error.rs WindowError, TokenError, InternalError, ExternalError", "src/error.rs BoundsError, LengthError", "src/parse/mod.rs Parser", "src/conv/mod.rs Decode::try_decode"]}
{"id": "C83", "title": "A tag is accepted exactly if the validator contains it", "statement": "take_tagword reads the tag as if there were no validator and returns it iff the validator accepts it. Arrays, references to arrays, slices, vectors, references to vectors and hash sets accept exactly their elements; an invalid tag is reported with exactly these elements as the valid ones, and 'no valid tags' is reported iff there are none. So it does not matter which container is used: the same inputs are accepted, and errors differ in the order of the listed tags only.", "quantifier": "all tag widths, all containers with any content, all validators of users, all parsers in any state", "why_tests_cant": "Containers hold arbitrarily many tags, sets are iterated in an unspecified order, validators can be written by users.", "anchors": ["src/parse/mod.rs Parser::take_tagword", "src/parse/error.rs TagValidator, impls"]}
{"id": "C84", "title": "The causes of an error come to an end and are told by its text", "statement": "Following source() from any error of the library ends after at most six errors and never meets two errors of the same type, so searching the causes for a type is unambiguous. The text of an error ends with the texts of all its causes (except for the failed conversion of a slice to an array, which decoding never reports). Converting an error into another, as ? does, keeps it as a cause.", "quantifier": "all error values of all error types, all conversions between them", "why_tests_cant": "Errors are trees of values of 13 types with arbitrary contents; tests see a few of them.", "anchors": ["src/conv/error.rs DecodeError", "src/parse/error.rs ParseError, TokenError, InternalError, ExternalError, TagError", "src/parse/mod.rs InvariantError", "src/error.rs BoundsError"]}
{"id": "C85", "title": "After a failed decoding the parser can still be used", "statement": "When decoding a part fails, the parser is in order: of the scope in which decoding began only a front has been taken, all scopes around it are untouched, and at most as many windows are open in addition as windows are nested in the type. So a caller who has put a window around the part can close it and go on with exactly the bytes behind it, wherever and why ever decoding failed, and can try any number of types in turn without reading outside of the input.", "quantifier": "all types (also recursive), all three parsers in any state with any windows open, all inputs on which decoding fails, any sequence of attempts", "why_tests_cant": "Decoding can fail at every byte of every type in any nesting of windows; tests look at the error, not at the state of the parser after it.", "anchors": ["src/parse/mod.rs Parser", "src/parse/mod.rs ByteParser, MemoParser, SliceParser", "src/conv/mod.rs Decode", "src/dynamic.rs Dynamic, VPadded"]}
{"id": "C86", "title": "Default values are good values", "statement": "Every type that implements Default has a default value that can be encoded, and decoding the encoding gives the default value back. If zero is in all ranges of the type, the default value is encoded as zero bytes only.", "quantifier": "all types that implement Default, at any depth, all three parsers, any bytes behind the value", "why_tests_cant": "There are infinitely many types with defaults, and for ranges and fixed lengths whether the default is good depends on the parameters of the type.", "anchors": ["src/int.rs RangedInt Default", "src/float.rs RangedFloat Default", "src/seq/fix.rs FixSeq Default", "src/seq/lim.rs LimSeq Default", "src/fixed.rs Default", "src/zarith.rs N Z Default", "src/schema.rs Bytes Default"]}
{"id": "C87", "title": "Only proper values get through a message", "statement": "Of every decoded value all parts are proper: ranged numbers denote numbers of their range, sequences have as many elements as they should. A value can be encoded exactly if all its ranged integers are in range and the contents of all its Dynamic parts are no longer than the prefix can say; if its parts are proper too, it is decoded back. Functions that skip a check agree with those that check wherever the caller's promise is kept; where it is broken, an integer cannot be encoded, a float is encoded but not accepted, and a text that is not UTF-8 must not be looked at as a str.", "quantifier": "all types at any depth (also recursive), all values, all inputs, all three parsers, all features (coming back: with enc_len_estimable_override values without an N of value 0 under a length prefix)", "why_tests_cant": "Improper parts can hide at any depth of any type, and which values come out of decoding ranges over all inputs.", "anchors": ["src/int.rs RangedInt::from_underlying_unchecked, to_underlying_unchecked", "src/float.rs RangedFloat::from_f64_unchecked, MIN, MAX", "src/fixed.rs FixedString::from_array_unchecked, as_str_unchecked", "src/conv/mod.rs Encode, Decode"]}
{"id": "C88", "title": "Deriving gives the codec of the fields, however the struct is written", "statement": "For every struct without generic parameters, be it a unit struct, a tuple struct or one with named fields, and whatever the names are, #[derive(Encode)], #[derive(Decode)] and #[derive(Estimable)] generate code that writes, reads and measures the fields in order of declaration, the same for all ways of writing the struct; #[derive(FixedLength)] gives the length that Estimable would give. Enums, unions and generic types are rejected at compile time, and so is deriving both FixedLength and Estimable. The payload of a data! constructor is such a struct.", "quantifier": "all declarations: all shapes, numbers, names and types of fields; all values, inputs, parsers and targets", "why_tests_cant": "The macros are programs that generate programs; a test sees the code generated for one declaration.", "anchors": ["encode_derive/src/lib.rs impl_encode", "decode_derive/src/lib.rs impl_decode", "estimable_derive/src/lib.rs impl_fixedlength, impl_estimable", "src/adt.rs data! @structify"]}
{"id": "C89", "title": "Counts of bytes are right", "statement": "write_to, enc_len and estimates add up byte counts in usize. For every value whose encoding is at most usize::MAX bytes long they return the true number and write the true bytes, in debug and in release builds. Beyond that a debug build panics and never returns a wrong number; a release build returns the number modulo usize::MAX + 1, and a Dynamic whose contents are that long is encoded with a wrong length prefix instead of a panic. The one exception: estimates of N and Z (and what relies on them with enc_len_estimable_override) cut off the number of bits at the width of usize, which matters where usize has 32 bits.", "quantifier": "all types at any depth, all values, all targets (also user-defined), both build profiles, usize of 32 and of 64 bits", "why_tests_cant": "Overflow needs values of 2^32 or 2^64 bytes; that no shorter value overflows in an intermediate sum is a statement about all types and values.", "anchors": ["src/conv/mod.rs write_to, enc_len", "src/conv/len.rs Estimable", "src/dynamic.rs Dynamic::write_to", "src/seq/mod.rs Sequence::write_to, unknown", "src/schema.rs Padded"]}
{"id": "C90", "title": "Printed numbers are the numbers", "statement": "{:b}, {:o}, {:x} and {:X} of a RangedInt show the number it stands for (a negative one as the u32 with the same bits), and {} of N, Z and integers shows the number in decimal: with sign, mark of the base, width, fill, alignment and zero padding as asked for, the digits without superfluous zeros. Printing a RangedInt panics exactly if its number is not in the range; {} never panics. Different numbers are printed differently unless fill characters can be taken for digits or a sign. Dynamic and AutoBox print as what they hold, FixedString as its (repaired) text, HexString as its digits.", "quantifier": "all values, backers and ranges, all format specifications (fill, alignment, sign, alternate form, zero padding, width, precision), both builds", "why_tests_cant": "The number of values and format specifications is unbounded; tests compare some outputs with expected texts.", "anchors": ["src/int.rs impl_numeric_fmt", "src/zarith.rs Display for N and Z", "src/dynamic.rs Display for Dynamic", "src/autobox.rs Display for AutoBox", "src/fixed.rs Display for FixedString, LowerHex for FixedBytes", "src/hexstring.rs Display for HexString"]}
{"id": "C91", "title": "Printed parsers and builders show their state", "statement": "{:?} of a ByteParser, MemoParser or SliceParser determines the bytes, the position and the open windows (for MemoParser also the log): two parsers print alike exactly if these are the same, and then every further use of them has the same outcome. {:?} of a MemoBuilder or SplitVec never panics, whatever was written, and shows exactly the runs of bytes (but not whether the last one is still open); {:?} of a finalized MemoBuffer is the same exactly if the buffers are ==; {:?} and {} of a SpanBuffer determine the lengths of the segments.", "quantifier": "all parser states, all sequences of builder operations and of segment operations, all programs run afterwards", "why_tests_cant": "That different states never print alike is a statement about all pairs of states; tests compare some outputs.", "anchors": ["src/parse/mod.rs derive(Debug) of ByteParser, MemoParser, SliceParser", "src/internal/offset.rs derive(Debug) of ContextOffset, FrameStack, Index", "src/internal/view.rs Debug for ViewStack", "src/parse/buffer.rs Debug for VecBuffer", "src/internal/splitvec.rs Debug and Display for SpanBuffer, Debug for SplitVec", "src/builder/memo.rs Debug for MemoBuilder and MemoBuffer"]}
{"id": "C92", "title": "{:?} of an error identifies the error", "statement": "The text printed by {:?} for a ParseError, an InvariantError or a DecodeError determines the error: its kind and every number in it, the tags that would have been valid in order, the width of an offending tag, the name of the type, the offending hexadecimal text. Two errors print alike exactly if they are the same up to floating-point numbers and foreign errors that print alike. Printing never panics.", "quantifier": "all pairs of errors, all texts that foreign errors and floating-point numbers may print as", "why_tests_cant": "That different errors never print alike is a statement about all pairs of errors; tests compare some outputs.", "anchors": ["src/parse/error.rs derive(Debug) of WindowError, TokenError, InternalError, ExternalError, ParseError", "src/error.rs derive(Debug) of WidthError, LengthError, BoundsError", "src/conv/error.rs derive(Debug) of DecodeError", "src/parse/mod.rs derive(Debug) of InvariantError"]}
{"id": "C93", "title": "What it costs to encode a value", "statement": "Encoding a value pushes as many bytes, over all targets written to, whatever the target. Without enc_len_estimable_override a Dynamic writes its contents twice (once into a counting sink to find their length), so for every type the work is at most 2^d times the length of the encoding, where d is how deep Dynamics are nested in the type. For recursive types it is less than 2 to the power of the length; it is not linear: messages of 5(k+1) bytes that decode in linear time take pushing 5(2^(k+1)-1) bytes to encode. With enc_len_estimable_override just the bytes of the encoding are pushed, and the number of calls of unknown is at most d times that of one estimate of the value, and at most half the square of that number, which messages of recursive types come close to.", "quantifier": "all types built from the combinators including recursive ones, all values that can be encoded, all targets and target states, all feature sets, all costs per push", "why_tests_cant": "Cost is not observable in a unit test; values of all nesting depths cannot be enumerated, and those of depth 60 would not finish.", "anchors": ["src/dynamic.rs: Dynamic::write_to", "src/conv/mod.rs: EncodeLength::enc_len", "src/conv/len.rs: Estimable::estimate", "src/conv/target.rs: Target"]}
{"id": "C94", "title": "Types with hand-written Encode and Decode go together with the library's types", "statement": "A user may implement Encode, Decode and Estimable by hand. A parse written with the methods of Parser (reads, skips, iteration, loops, branches, calls of itself, windows that are opened and closed around code, ? and early errors, catching the errors of code that opens no windows, parse of other types) behaves alike with every parser, also with parsers written by users: same value, same error class, same bytes left, and never reads outside the buffer. A write_to made of the methods of Target appends the same bytes to every target. Recursive types of the library keep all of these promises. If in addition SliceParser reads back what was encoded, then every parser does, in the middle of any input, and every type made of it with Option, Nullable, Dynamic, VPadded, Padded, Sequence, FixSeq, LimSeq, AutoBox, data! or as a field of a record is encoded and read back correctly too, under the same conditions on position as the library's own types: nothing about a hand-written type other than these promises is relied on. Elements of sequences and contents of Nullable must not be empty; with enc_len_estimable_override estimates must be exact. A decoder that goes on after an error within a window (a failed enforce_target, or a failed Dynamic) is not covered, and the parsers differ on it.", "quantifier": "all hand-written decoders and encoders of the described form, all types built around them, all values, all inputs of at most isize::MAX bytes, all parsers and targets, both build profiles, all feature sets", "why_tests_cant": "The implementations are the users': no test in the crate can run code that is yet to be written, let alone in all combinations with other types, parsers and inputs.", "anchors": ["src/conv/mod.rs:224-276: Decode (documentation)", "src/conv/mod.rs:62-130: Encode", "src/parse/mod.rs:1334-1360: Pair", "src/parse/mod.rs: Parser, ParserExt", "src/conv/target.rs: Target"]}
{"id": "C95", "title": "Errors say truthfully where decoding stopped", "statement": "When decoding fails with an error of the parser, its numbers are those of the place where decoding stopped: a short read names the offset, the number of bytes asked for, and the end of the innermost window, and fewer bytes than asked for lie between; a window that does not fit names the end of the innermost window and where the new one would have ended, or the number of bytes asked for, more than there are; a window closed too early names a number of bytes that were left in it. ByteParser and MemoParser report the same error to the letter; SliceParser reports the same one, with offsets counted from where it stands. Bytes from that place on have not been looked at: any other input of the same length that agrees up to there gives the same error. For windows that do not fit into the input the error also gives the number of bytes left in the buffer; this should be the number of bytes from the place of the error to the end.", "quantifier": "all types of the library, recursive types, hand-written decoders; all inputs of at most isize::MAX bytes; the parsers ByteParser, MemoParser and SliceParser; both build profiles", "why_tests_cant": "Positions depend on how deep windows are nested and on everything read before; the independence of the rest of the input is a statement about all possible rests.", "anchors": ["src/parse/error.rs: WindowError", "src/internal/offset.rs:236-370: ContextOffset", "src/parse/mod.rs: ByteParser, MemoParser, SliceParser", "src/conv/mod.rs: Decode::try_decode"]}
{"id": "C96", "title": "Parts under a length prefix can be left undecoded and decoded later", "statement": "Replace parts of a type that lie under a length prefix (Dynamic) by Dynamic<_, Bytes>, or ones in front of reserved bytes (VPadded<_, N>) by VPadded<Bytes, N>, any number of them at any place. A message decodes to a value of the full type, leaving some rest, exactly if it decodes to a value of the other type, leaving the same rest, whose undecoded parts, decoded on their own and read to the end, give the parts of the value. The same holds for try_decode, on parsers in any state and for recursive types, which may be looked at one level at a time. Encoding the full value gives the same bytes as encoding the parts first and then the value that holds them; with the feature enc_len_estimable_override this holds where the estimates are right.", "quantifier": "all types of the library, recursive types, all ways of choosing the parts; all inputs of at most isize::MAX bytes; all three parsers, both build profiles, all features", "why_tests_cant": "The parts may be chosen in exponentially many ways at any depth, and the equivalence also says that no message is accepted by one way of decoding and rejected by the other.", "anchors": ["src/schema.rs:365: Bytes", "src/dynamic.rs:80: Dynamic", "src/dynamic.rs:422: VPadded", "src/conv/mod.rs: Decode::try_decode, Encode::encode"]}
{"id": "C97", "title": "How bounded sequences are stored makes no difference if there is room for them", "statement": "FixSeq<T, N> and LimSeq<T, N> make their storage for N elements before reading the first one. If there is room for all bounded sequences that a type mentions (arrays of fewer than 2^32 elements; vectors of at most isize::MAX bytes), decoding and encoding any value that contains them, at any depth and in recursive types, is what it would be without regard to storage. Where there is no room for one of them, decoding panics exactly when a value of that sequence type is reached, whatever the input, and all other outcomes are unchanged. The memory reserved by the bounded sequences in a decoded value is at most linear in the number of bytes read, with constants that depend on the type only; they cannot be better, since a single byte of input can make a decoder reserve the memory for N elements.", "quantifier": "all types built from the crate's codecs and derives including recursive families, all choices of storage for FixSeq and LimSeq, all element sizes in memory, all feature settings, both profiles, all parsers in all states, all inputs", "why_tests_cant": "Tests cannot exhaust types, nesting and inputs, and cannot allocate what the limits are about.", "anchors": ["src/seq/fix.rs:76-92", "src/seq/fix.rs:256-297", "src/seq/lim.rs:140-150", "src/seq/lim.rs:279-308", "Cargo.toml: arrayvec_fixseq, arrayvec_limseq"]}
{"id": "C98", "title": "Encodings sort like the values", "statement": "Encodings can serve as keys of a sorted store: comparing the encodings of two well-formed values byte by byte, as Vec<u8>, StrictBuilder, HexString or MemoBuilder do, gives what partial_cmp of the values gives; so does comparing their hexadecimal texts. For types in which nothing of open length has to be last this also holds in the middle of longer keys: encodings followed by other bytes compare like pairs. The same for recursive types.", "quantifier": "all types built from the crate's codecs and derives including recursive families; all pairs of well-formed values; all features and builds; all continuations", "why_tests_cant": "It relates every pair of values to every pair of encodings; the orders disagree only for particular combinations of field positions, tags and lengths.", "anchors": ["src/dynamic.rs:146-162", "src/adt.rs:48", "src/adt.rs:284", "src/builder/strict.rs:17-19", "src/builder/memo.rs:26-30", "src/hexstring.rs:186", "src/builder/mod.rs:89-91"]}
{"id": "C99", "title": "The sizes messages can have", "statement": "Each type has a set of message sizes that follows from its definition: an encoding of a well-formed value has one of these sizes, what is consumed when a value is decoded has one of these sizes, and each of these sizes is the size of some encoding. Hence a type has a smallest message: it is the encoding of some value, no encoding is smaller, and an input shorter than it is never accepted, by any parser, wherever in a larger message; types without a size have no messages at all, so nothing is ever accepted as one of their values. And either there is a bound that no encoding exceeds and more than which is never consumed, or there are encodings as large as one likes. For recursive types the sizes are those of the finite unfoldings. (With enc_len_estimable_override, encodings of values with right estimates.)", "quantifier": "all types built from the crate's codecs and derives including recursive families; all values; all inputs and parser states; all sizes; all features and builds", "why_tests_cant": "That a size never occurs, or that a short input is never accepted, speaks of all inputs; that every size occurs speaks of infinitely many values.", "anchors": ["src/conv/len.rs:95-98", "src/dynamic.rs:371-400", "src/schema.rs:184-215", "src/schema.rs:330-360", "src/seq/mod.rs:222-236", "src/seq/fix.rs:271-300", "src/seq/lim.rs:291-320", "src/int.rs:513-560", "src/zarith.rs:15-40", "src/adt.rs:48"]}
{"id": "C100", "title": "Conversations through one target and one parser", "statement": "Several messages written one after the other to one target arrive as their encodings one after the other, with any target of the library or of a user, and the calls return the number of bytes in sum. One parser reads them back one after the other, also when the type of the next message depends on the values of the ones before (a header that announces what follows, a count and as many items), in the middle of any input and within any windows, and leaves what follows them. No run is the beginning of another: at each moment sender and receiver agree on the type of the next message. If only part of the bytes is there, exactly the messages whose encodings are there can be read, and the next one is reported as incomplete. On any bytes whatsoever, reading a conversation never reads outside the buffer and all parsers agree. (For types that delimit themselves; others may come last.)", "quantifier": "all trees of types of the library, recursive ones included, and of hand-written types that keep the promises of C94, in which the next type is any function of the values read so far; all well-formed runs; all targets and parsers, all states of these; all continuations and cuts; all inputs; all features and builds", "why_tests_cant": "The types used depend on the values by arbitrary functions, the parser and target are in states left by all the messages before, and the input may be cut anywhere or be arbitrary.", "anchors": ["src/conv/mod.rs:77", "src/conv/mod.rs:272-273", "src/conv/target.rs:12-97", "src/parse/mod.rs:150-330"]}
{"id": "C101", "title": "Conversions between byte containers keep the bytes", "statement": "The conversions between `Vec<u8>`, byte slices, arrays, `Box`, `Rc`, `Arc` and `Cow` of bytes, `Bytes`, `ByteSequence`, `HexString`, `FixedBytes<N>`, hexadecimal texts and byte iterators keep the bytes and their order, in any number and order of calls; what `extend`, `io::Write` and the mutable views do on the way shows in the end exactly once and in order. A chain without such changes fails exactly if it asks for a fixed number of bytes that is not the number there, and the error names that number. Two chains from one type to another that succeed give the same value, and a chain back to the first type gives back what was there. (Texts: up to the case of digits.)", "quantifier": "all chains of any length of calls of the listed conversions, all contents, all widths, all in-place changes, encoding to `Vec<u8>` and `HexString` included", "why_tests_cant": "There are infinitely many chains and contents; a test fixes one of each.", "anchors": ["src/schema.rs:365-540", "src/fixed.rs:33-240", "src/hexstring.rs:192-565", "src/seq/mod.rs:77-211"]}
{"id": "C102", "title": "Wrappers add nothing to what they hold", "statement": "`AutoBox`, `Dynamic`, `Padded`, `VPadded`, `Nullable`, `Sequence`, `FixSeq` and `LimSeq` are transparent: wrapping, unwrapping, borrowing, cloning, and turning into vectors, slices, iterators, boxes and options, in any number and order of calls, keep what is held, element by element and in order; two ways from one type to another give the same value, and any way back gives back the value one began with. The one call that adds something is `Nullable::from(x)`, which holds `Some(x)`. What is written through a mutable reference is exactly what one would get by taking the contents out, changing them, and wrapping them again. `is_some`, `is_none`, `default`, `padding`, `new`, `extend` and indexing tell and change what they say.", "quantifier": "all nestings of the wrappers around any type, all chains of calls of any length, all contents, all changes through mutable references", "why_tests_cant": "There are infinitely many nestings, chains and contents; a test fixes one of each.", "anchors": ["src/autobox.rs:72-244", "src/dynamic.rs:79-247", "src/dynamic.rs:422-455", "src/schema.rs:118-310", "src/seq/mod.rs:77-211", "src/seq/fix.rs:75-210", "src/seq/lim.rs:49-244"]}
{"id": "C103", "title": "The alternate form {:#?} says the same as {:?}, on several lines", "statement": "Taking line breaks, indentation and trailing commas out of what {:#?} prints for a value gives exactly what {:?} prints, by a rule that looks at the text alone; {:#?} panics exactly for the values for which {:?} panics, and prints different values of a type without doubles differently. Contents of Padded, Nullable, Some, sequences and records are printed on lines of their own, four columns further to the right and with a comma behind each; VPadded and AutoBox print as what they hold; what is in a Dynamic or a data! enum stays on one line, as with {:?}. The same holds for errors of parsing and decoding (unless they quote text with line breaks of its own), for parsers, MemoBuilder and MemoBuffer: {:#?} tells apart the same errors and states as {:?}.", "quantifier": "all types built from the library's codecs, recursive ones included, all values, all builds, all names of user-defined types, all errors, all states of parsers and builders", "why_tests_cant": "Layout depends on all levels of arbitrarily nested values; that texts differ is about all pairs of values.", "anchors": ["src/dynamic.rs:218-228", "src/dynamic.rs:424-428", "src/adt.rs:332-340", "src/zarith.rs:55-59", "src/zarith.rs:185-189", "src/autobox.rs:204-208", "src/schema.rs:116-363", "src/seq/mod.rs:75", "src/fixed.rs:29-275", "src/parse/error.rs:26-368", "src/error.rs:22-155", "src/conv/error.rs:9-16", "src/parse/mod.rs:479-496", "src/parse/mod.rs:696-700", "src/parse/mod.rs:858-863", "src/parse/mod.rs:1052-1055", "src/internal/offset.rs:279-284", "src/internal/view.rs:74-78", "src/builder/memo.rs:43-49", "src/builder/memo.rs:104-111"]}
