{
 "claims": [
  {
   "property": "C01",
   "status": "proved",
   "theorems": [
    "Fourleaf.Props.c01_varint_roundtrip",
    "Fourleaf.Props.c01_signed_varint_roundtrip"
   ],
   "note": "all u64/i64, any continuation"
  },
  {
   "property": "C02",
   "status": "proved",
   "theorems": [
    "Fourleaf.Props.c02_denormalised_accepted"
   ],
   "note": ""
  },
  {
   "property": "C03",
   "status": "proved",
   "theorems": [
    "Fourleaf.Props.c03_too_large_rejected",
    "Fourleaf.Props.c03_decode_sound",
    "Fourleaf.Props.c03_overlong_rejected"
   ],
   "note": ""
  },
  {
   "property": "C04",
   "status": "proved",
   "theorems": [
    "Fourleaf.Props.c04_fixed_width"
   ],
   "note": ""
  },
  {
   "property": "C05",
   "status": "proved",
   "theorems": [
    "Fourleaf.Props.c05_shortest",
    "Fourleaf.Props.c05_prefix_free"
   ],
   "note": ""
  },
  {
   "property": "C06",
   "status": "proved",
   "theorems": [
    "Fourleaf.Props.c06_zigzag_bijection",
    "Fourleaf.Props.c06_zigzag_formula"
   ],
   "note": ""
  },
  {
   "property": "C07",
   "status": "proved",
   "theorems": [
    "Fourleaf.Props.c07_parse_total",
    "Fourleaf.Props.c07_parse_toByte",
    "Fourleaf.Props.c07_layout"
   ],
   "note": ""
  },
  {
   "property": "C08",
   "status": "proved",
   "theorems": [
    "Fourleaf.Props.c08_roundtrip",
    "Fourleaf.Props.c08_read_back",
    "Fourleaf.Props.c24_mixed"
   ],
   "note": "write any sequence of calls (all write calls except pad_to_align and dynamic blobs, which are C25/C24), then read back; c08_read_back is the reading half for any spelling"
  },
  {
   "property": "C09",
   "status": "proved",
   "theorems": [
    "Fourleaf.Props.c09_documented_format",
    "Fourleaf.Props.c24_mixed"
   ],
   "note": "every write call except dynamic blobs (C24) and pad_to_align (C25); spec is Spec.canonToks"
  },
  {
   "property": "C10",
   "status": "proved",
   "theorems": [
    "Fourleaf.Props.c10_elements_in_order"
   ],
   "note": "every sequence of reading, slicing and seeking operations on each blob; any spelling, chunking, seekability"
  },
  {
   "property": "C11",
   "status": "proved",
   "theorems": [
    "Fourleaf.Props.c11_lock_step",
    "Fourleaf.Props.c11_position_accounting"
   ],
   "note": "lock step for arbitrary mixed histories of reading, writing and blob calls including failed ones; c11_position_accounting for adaptive reading clients, with data unchanged"
  },
  {
   "property": "C12",
   "status": "proved",
   "theorems": [
    "Fourleaf.Props.c10_elements_in_order",
    "Fourleaf.Props.c12_field_pos_depth",
    "Fourleaf.Props.c12_depth_counts"
   ],
   "note": ""
  },
  {
   "property": "C13",
   "status": "proved",
   "theorems": [
    "Fourleaf.Props.c13_skip_field",
    "Fourleaf.Props.c13_partly_read"
   ],
   "note": "c13_skip_field: the field is untouched; c13_partly_read: any part of its contents was read before the skip"
  },
  {
   "property": "C14",
   "status": "proved",
   "theorems": [
    "Fourleaf.Props.c14_eof_sticky",
    "Fourleaf.Props.c14_clear",
    "Fourleaf.Props.c14_session",
    "Fourleaf.Props.c14_only_reading"
   ],
   "note": " c14_session: the same in any session (mixtures of all calls, writing and seeking included, with any outcomes); c14_only_reading: no call but the reading ones and clear_eof touches the flag."
  },
  {
   "property": "C15",
   "status": "proved",
   "theorems": [
    "Fourleaf.Props.c15_ends_at_element",
    "Fourleaf.Props.c15_ends_inside_header",
    "Fourleaf.Props.c15_ends_inside_content",
    "Fourleaf.Props.c15_eof_at_descriptor",
    "Fourleaf.Props.c15_eof_inside_integer"
   ],
   "note": "After any reading client; reader may split and interrupt but not fail (failures: C58). A client that has itself seeked in a blob to beyond the end of the input is excluded from the content case."
  },
  {
   "property": "C16",
   "status": "proved",
   "theorems": [
    "Fourleaf.Props.c16_padding_transparent"
   ],
   "note": "clients are arbitrary programs using next_field (and skip_up, blob operations) to which byte offsets are hidden; inputs may also differ in spelling and chunking"
  },
  {
   "property": "C17",
   "status": "proved",
   "theorems": [
    "Fourleaf.Props.c17_exception"
   ],
   "note": "the text of the error is from_utf8_lossy of the first 256 bytes of the message (LossyText)"
  },
  {
   "property": "C18",
   "status": "proved",
   "theorems": [
    "Fourleaf.Props.handed_of_nextElement",
    "Fourleaf.Props.handed_of_alloc",
    "Fourleaf.Props.c18_blob_confined",
    "Fourleaf.Props.c18_seek_start",
    "Fourleaf.Props.c55_handed"
   ],
   "note": "handles from reading and from write_blob_alloc/write_exception_alloc"
  },
  {
   "property": "C19",
   "status": "proved",
   "theorems": [
    "Fourleaf.Props.c19_no_panic_no_hang"
   ],
   "note": "every client program, input and reader schedule"
  },
  {
   "property": "C20",
   "status": "proved",
   "theorems": [
    "Fourleaf.Props.c20_position_never_wraps",
    "Fourleaf.Props.c20_overlong_blob_refused",
    "Fourleaf.Props.c55_bounds"
   ],
   "note": ""
  },
  {
   "property": "C21",
   "status": "proved",
   "theorems": [
    "Fourleaf.Props.c21_chunking_independent"
   ],
   "note": ""
  },
  {
   "property": "C22",
   "status": "proved",
   "theorems": [
    "Fourleaf.Props.c22_crash_prefix",
    "Fourleaf.Props.c22_short_writes",
    "Fourleaf.Props.c22_mixed_crash"
   ],
   "note": "c22_crash_prefix, c22_short_writes: all write calls but dynamic blobs and pad_to_align; c22_mixed_crash: any mixture of all writing calls including those, with positions up to 2^62, on a seekable sink"
  },
  {
   "property": "C23",
   "status": "proved",
   "theorems": [
    "Fourleaf.Props.c23_incomplete_blob",
    "Fourleaf.Props.c23_filled_continues"
   ],
   "note": ""
  },
  {
   "property": "C24",
   "status": "proved",
   "theorems": [
    "Fourleaf.Props.c24_dynamic_blob",
    "Fourleaf.Props.c24_reads_back",
    "Fourleaf.Props.c24_any_operations",
    "Fourleaf.Props.c24_mixed"
   ],
   "note": "sequential pieces, and arbitrary handle operations"
  },
  {
   "property": "C25",
   "status": "proved",
   "theorems": [
    "Fourleaf.Props.c25_pad_to_align",
    "Fourleaf.Props.c24_mixed"
   ],
   "note": ""
  },
  {
   "property": "C26",
   "status": "proved",
   "theorems": [
    "Fourleaf.Props.c26_copy",
    "Fourleaf.Props.c26_copy_failing",
    "Fourleaf.Props.c26_truncated",
    "Fourleaf.Props.c26_partly_read"
   ],
   "note": "std's io::copy loop between the two streams, any behaviour of reader and writer; c26_partly_read: a handle used before the copy"
  },
  {
   "property": "C27",
   "status": "proved",
   "theorems": [
    "Fourleaf.Props.c27_skip_up"
   ],
   "note": ""
  },
  {
   "property": "C28",
   "status": "proved",
   "theorems": [
    "Fourleaf.Props.c28_read_fully"
   ],
   "note": ""
  },
  {
   "property": "C29",
   "status": "proved",
   "theorems": [
    "Fourleaf.Props.c29_to_u8",
    "Fourleaf.Props.c29_to_u16",
    "Fourleaf.Props.c29_to_u32",
    "Fourleaf.Props.c29_to_u64",
    "Fourleaf.Props.c29_to_i8",
    "Fourleaf.Props.c29_to_i16",
    "Fourleaf.Props.c29_to_i32",
    "Fourleaf.Props.c29_to_i64",
    "Fourleaf.Props.c29_to_bool",
    "Fourleaf.Props.c29_to_null",
    "Fourleaf.Props.c29_kinds"
   ],
   "note": "usize/isize are 64 bits wide"
  },
  {
   "property": "C30",
   "status": "proved",
   "theorems": [
    "Fourleaf.Props.c30_roundtrip",
    "Fourleaf.Props.c30_sequences",
    "Fourleaf.Props.exValue_type"
   ],
   "note": "All types (built-in and declared with fourleaf_retrofit!, recursive ones included) and all values of them (HasType), limits as computed by the specification HasType. c30_sequences: which vectors and arrays are values, without the model's isU8."
  },
  {
   "property": "C31",
   "status": "proved",
   "theorems": [
    "Fourleaf.Props.c31_sequence"
   ],
   "note": "Values of possibly different types, one after the other on one stream."
  },
  {
   "property": "C32",
   "status": "proved",
   "theorems": [
    "Fourleaf.Props.c32_contract"
   ],
   "note": "Holds for anything the modelled serialisers write, typed or not."
  },
  {
   "property": "C33",
   "status": "proved",
   "theorems": [
    "Fourleaf.Props.c33_truncated",
    "Fourleaf.Props.c33_graceful"
   ],
   "note": "any spelling, any type, any schedule without failures. With graceful EOF (c33_graceful) a message cut off within an element is rejected on streams that do not seek; on those that do, a blob that is cut off is not noticed (finding 1, c68_seek_example)."
  },
  {
   "property": "C34",
   "status": "proved",
   "theorems": [
    "Fourleaf.Props.c34_tail",
    "Fourleaf.Props.c34_errors",
    "Fourleaf.Props.c34_arbitrary",
    "Fourleaf.Props.c34_client"
   ],
   "note": "c34_tail: well-formed messages that are accepted, also with graceful EOF; c34_errors: messages that are rejected; c34_arbitrary: any input accepted without graceful EOF; c34_client: any reading client that stops at the end of the input, values and errors"
  },
  {
   "property": "C35",
   "status": "proved",
   "theorems": [
    "Fourleaf.Props.c35_bounded",
    "Fourleaf.Props.c35_exceeding"
   ],
   "note": "types with tuples of at most 16 components and UnknownFields not used as a single field (as in the source)"
  },
  {
   "property": "C36",
   "status": "proved",
   "theorems": [
    "Fourleaf.Props.c36_bounded",
    "Fourleaf.Props.c36_exceeding",
    "Fourleaf.Props.c36_before_reading"
   ],
   "note": ""
  },
  {
   "property": "C37",
   "status": "proved",
   "theorems": [
    "Fourleaf.Props.c37_bounded",
    "Fourleaf.Props.c37_exceeding"
   ],
   "note": "stack need is a function of type and limit only (stackNeed)"
  },
  {
   "property": "C38",
   "status": "proved",
   "theorems": [
    "Fourleaf.Props.c38_order",
    "Fourleaf.Props.c38_nested"
   ],
   "note": "stable reorderings, at the top level (c38_order) and at all levels (c38_nested)"
  },
  {
   "property": "C39",
   "status": "proved",
   "theorems": [
    "Fourleaf.Props.c39_ignored",
    "Fourleaf.Props.c39_nested",
    "Fourleaf.Props.c39_reported",
    "Fourleaf.Props.c39_never_reported"
   ],
   "note": "c39_ignored, c39_nested: adding fields changes nothing; c39_reported: in strict mode they are an error. c39_never_reported: with ignore_unknown_fields no UnknownField error, whatever the input."
  },
  {
   "property": "C40",
   "status": "proved",
   "theorems": [
    "Fourleaf.Props.c40_rejected",
    "Fourleaf.Props.c40_collection"
   ],
   "note": "Rejection for every struct/tuple when some field occurs more or less often than its type allows; [u8; 0] fields may be absent (finding). Collections that keep all elements accept any number of occurrences; sets and maps: C44; exact acceptance: C54."
  },
  {
   "property": "C41",
   "status": "proved",
   "theorems": [
    "Fourleaf.Props.c41_read",
    "Fourleaf.Props.c41_written",
    "Fourleaf.Props.c41_change",
    "Fourleaf.Props.c41_int",
    "Fourleaf.Props.c41_narrow",
    "Fourleaf.Props.c41_narrow_rejects",
    "Fourleaf.Props.c41_option",
    "Fourleaf.Props.c41_vec",
    "Fourleaf.Props.c41_option_vec",
    "Fourleaf.Props.c41_vec_set",
    "Fourleaf.Props.c41_flat",
    "Fourleaf.Props.c41_flat_then",
    "Fourleaf.Props.c41_set_int",
    "Fourleaf.Props.c41_not_u8",
    "Fourleaf.Props.c41_not_nested",
    "Fourleaf.Props.c41_not_top",
    "Fourleaf.Props.c41_top",
    "Fourleaf.Props.c41_delete",
    "Fourleaf.Props.c41_signedness",
    "Fourleaf.Props.c41_vec_map",
    "Fourleaf.Props.c41_vec_int",
    "Fourleaf.Props.c41_map_int",
    "Fourleaf.Props.c41_map_option",
    "Fourleaf.Props.c41_box",
    "Fourleaf.Props.c41_variants",
    "Fourleaf.Props.c41_fields",
    "Fourleaf.Props.c41_add"
   ],
   "note": "Compat is a relation of types and values (widening, narrowing of numbers in range, T to Option/Vec, Option to Vec, collections to sets and maps, other element types of sets and maps as long as different elements or keys stay different, adding/reordering/dropping fields, keeping, removing or adding a collector of unknown fields, structs and variants that delegate, removing the delegating struct, catch-all variants; nested anywhere in structs, tuples, enum variants). Unknown fields may be ignored before and after, unless the new type has additional fields (an unknown field could have the tag of one). c41_delete: with a collector of unknown fields. c41_signedness: reading an unsigned field as signed silently gives another number, except for zero. c41_not_nested and c41_not_top are stated for vectors of, and structs starting with, numbers, strings, byte strings and enums (with structs instead, some messages are accepted by both types, as different values). The documentation says that T to Vec<T> is not compatible for whole messages; c41_top: for types that are not structs, it is. c41_flat(_then): what is written for a set or map, anywhere in a type, is read as a vector of its elements, and any of the other changes can follow (a foreign message may have duplicates, so this is for written values). c41_int to c41_variants state the changes of one field of a struct or tuple one by one (Retyped: two types that differ only in that field), with the exact value and costs; c41_fields: reordering, renaming and deleting; c41_add: an additional optional field or collection."
  },
  {
   "property": "C42",
   "status": "proved",
   "theorems": [
    "Fourleaf.Props.c42_reads",
    "Fourleaf.Props.c42_faithful",
    "Fourleaf.Props.c42_rewrite"
   ],
   "note": "asUnknowns is the tree as a value; it depends only on the tree, so reading and writing again gives the same bytes."
  },
  {
   "property": "C43",
   "status": "proved",
   "theorems": [
    "Fourleaf.Props.c43_edit"
   ],
   "note": "Also for arbitrary well-typed replacements of the other components."
  },
  {
   "property": "C44",
   "status": "proved",
   "theorems": [
    "Fourleaf.Props.c44_map",
    "Fourleaf.Props.c44_set"
   ],
   "note": "Map/set fields of any struct or tuple; iteration order of hash/tree collections is not modelled."
  },
  {
   "property": "C45",
   "status": "proved",
   "theorems": [
    "Fourleaf.Props.c45_total"
   ],
   "note": "any schedule, also with I/O failures, from any stream state satisfying the invariant (all states reachable by the API, C19)"
  },
  {
   "property": "C46",
   "status": "proved",
   "theorems": [
    "Fourleaf.Props.c46_valid",
    "Fourleaf.Props.c46_exact",
    "Fourleaf.Props.c46_rejects"
   ],
   "note": "Validity for every input; exactness and rejection for well-formed messages. [u8; 0] fields may be absent (see C40)."
  },
  {
   "property": "C47",
   "status": "proved",
   "theorems": [
    "Fourleaf.Props.c47_slice",
    "Fourleaf.Props.c47_slice_read",
    "Fourleaf.Props.c47_unchanged",
    "Fourleaf.Props.c47_copy",
    "Fourleaf.Props.c47_borrow",
    "Fourleaf.Props.c47_consume",
    "Fourleaf.Props.c47_subrange",
    "Fourleaf.Props.c47_any",
    "Fourleaf.Props.c47_same"
   ],
   "note": "slices are ranges of the input and are not changed; types differing in ownership only accept the same bytes, whatever they are, with the same values and consume the same bytes; the errors are the same too, at the same place, except for the limit on copied bytes and for input cut off inside a blob (where both fail)"
  },
  {
   "property": "C48",
   "status": "proved",
   "theorems": [
    "Fourleaf.Props.c48_roundtrip",
    "Fourleaf.Props.c48_unknownVariant",
    "Fourleaf.Props.c48_rejects",
    "Fourleaf.Props.c48_catchAll"
   ],
   "note": "Catch-all values with a discriminant that is declared are not representable in the model (they would read back as the declared variant)."
  },
  {
   "property": "C49",
   "status": "proved",
   "theorems": [
    "Fourleaf.Props.c49_strict",
    "Fourleaf.Props.c49_unit",
    "Fourleaf.Props.c49_exact"
   ],
   "note": "c49_strict: the round trip of C30 with ignore_unknown_fields = false unless () is involved; c49_unit: (), boxed or delegated to, is written as C1 00 00 and refused with UnknownField; c49_exact: the exact condition on the value, with the error."
  },
  {
   "property": "C50",
   "status": "proved",
   "theorems": [
    "Fourleaf.Props.c50_paths"
   ],
   "note": ""
  },
  {
   "property": "C51",
   "status": "proved",
   "theorems": [
    "Fourleaf.Props.c51_debug_panics",
    "Fourleaf.Props.c51_debug_no_output",
    "Fourleaf.Props.c51_debug_same",
    "Fourleaf.Props.c51_debug_dynamic",
    "Fourleaf.Props.c51_read_tags",
    "Fourleaf.Props.c51_invalid_tag_never_survives",
    "Fourleaf.Props.c51_invalid_tag_corrupts"
   ],
   "note": "Debug.lean models the debug build (the assertion in From<ParsedDescriptor>). Finding: the documented panic does not happen in release builds."
  },
  {
   "property": "C52",
   "status": "proved",
   "theorems": [
    "Fourleaf.Props.c52_reserialise"
   ],
   "note": ""
  },
  {
   "property": "C53",
   "status": "proved",
   "theorems": [
    "Fourleaf.Props.c53_limits_only_reject",
    "Fourleaf.Props.c53_value_stable"
   ],
   "note": ""
  },
  {
   "property": "C54",
   "status": "proved",
   "theorems": [
    "Fourleaf.Props.c54_accepts",
    "Fourleaf.Props.c54_rejects"
   ],
   "note": "The relation Reads (Reads.lean) is the specification; it does not mention the functions of the model except occ/unknowns (filters by tag) and setInsert/mapInsert (characterised in C44); the fields of a tuple are specified separately (TupleSpec.lean)."
  },
  {
   "property": "C55",
   "status": "proved",
   "theorems": [
    "Fourleaf.Props.c55_no_panic_no_hang",
    "Fourleaf.Props.c55_total",
    "Fourleaf.Props.c55_bounds",
    "Fourleaf.Props.c55_handed"
   ],
   "note": "all calls of Stream and Blob (set_pos, set_struct_depth, get_mut excluded, documented as at the caller's own risk); preconditions spelled out in Excused"
  },
  {
   "property": "C56",
   "status": "proved",
   "theorems": [
    "Fourleaf.Props.c56_ipv4",
    "Fourleaf.Props.c56_ipv6",
    "Fourleaf.Props.c56_ip",
    "Fourleaf.Props.c56_duration",
    "Fourleaf.Props.c56_sockV4",
    "Fourleaf.Props.c56_sockV6",
    "Fourleaf.Props.c56_sock",
    "Fourleaf.Props.c56_duration_exact",
    "Fourleaf.Props.c56_duration_range",
    "Fourleaf.Props.c56_result"
   ],
   "note": "std values are concrete Lean types; accessors (octets, as_secs, ...) and constructors of std are modelled"
  },
  {
   "property": "C57",
   "status": "proved",
   "theorems": [
    "Fourleaf.Props.c57_seek_forgets",
    "Fourleaf.Props.c57_seek_outcome",
    "Fourleaf.Props.c57_replay",
    "Fourleaf.Props.c57_read_own_writes"
   ],
   "note": "seek after any session; replay of any field after any two reading clients (bare Read::read excluded in the client compared, its chunks are arbitrary by contract; byte stream that does not fail); write-then-read for any mixture of writes on a seekable sink without failures, positions below 2^62."
  },
  {
   "property": "C58",
   "status": "proved",
   "theorems": [
    "Fourleaf.Props.c58_call",
    "Fourleaf.Props.c58_read",
    "Fourleaf.Props.c58_client",
    "Fourleaf.Props.c58_deserialize",
    "Fourleaf.Props.c58_message"
   ],
   "note": "Two streams in the same state, one with a reader that may fail, side by side (Lead.lean)."
  },
  {
   "property": "C59",
   "status": "proved",
   "theorems": [
    "Fourleaf.Props.c59_commit",
    "Fourleaf.Props.c59_next_element",
    "Fourleaf.Props.c59_next_field"
   ],
   "note": "The input must contain the whole pending blob. An example shows that a failure inside of a header loses the part already read (DESIGN finding 18)."
  },
  {
   "property": "C60",
   "status": "proved",
   "theorems": [
    "Fourleaf.Props.c60_accessors",
    "Fourleaf.Props.c60_fixed",
    "Fourleaf.Props.c60_moves"
   ],
   "note": "any session for the absence of panics and consistency; any sequence of operations on a handle for the movement of inner_pos"
  },
  {
   "property": "C61",
   "status": "proved",
   "theorems": [
    "Fourleaf.Props.c61_located",
    "Fourleaf.Props.c61_rejected",
    "Fourleaf.Props.c61_tag_names"
   ],
   "note": "Blames (Blame.lean) is the specification of defects; both directions; limit errors are backed by counts of fields and blob bytes; tagName (De.lean) is specified by c61_tag_names"
  },
  {
   "property": "C62",
   "status": "proved",
   "theorems": [
    "Fourleaf.Props.c62_elements",
    "Fourleaf.Props.c62_messages",
    "Fourleaf.Props.c62_values"
   ],
   "note": "uniqueness of spellings, messages with positions, and serialised values"
  },
  {
   "property": "C63",
   "status": "proved",
   "theorems": [
    "Fourleaf.Props.c63_client",
    "Fourleaf.Props.c63_deserialize",
    "Fourleaf.Props.c63_refused",
    "Fourleaf.Props.c63_message"
   ],
   "note": "any client against a reader that gives at least one byte in each of gives A calls and then does anything (X); deserialising values and refusing messages, with anything behind them; the bytes to come are modelled as a nonempty tail"
  },
  {
   "property": "C64",
   "status": "proved",
   "theorems": [
    "Fourleaf.Props.c64_location",
    "Fourleaf.Props.c64_nested"
   ],
   "note": "the string is the rendered context (Display for Context); names of declared fields contain no opening brace"
  },
  {
   "property": "C65",
   "status": "proved",
   "theorems": [
    "Fourleaf.Props.c65_write_back",
    "Fourleaf.Props.c65_seen",
    "Fourleaf.Props.c65_edit",
    "Fourleaf.Props.c65_old_reads"
   ],
   "note": "Sees is a relation of types and values: what the old program holds when the new one would hold v'. OlderTy/Versions: same fields or fewer fields with a collector of unknown fields, same variants or fewer with a catch-all variant, nested anywhere, including the values of maps, except inside sets and keys of maps (whose types must be unchanged: the new program may identify elements that the old one sees as different). The write-back theorem asks that the value written needs no lenient configuration (no ignored unknown fields) and that the limits of the new program allow for it."
  },
  {
   "property": "C66",
   "status": "proved",
   "theorems": [
    "Fourleaf.Props.c66_file",
    "Fourleaf.Props.c66_edit_in_place",
    "Fourleaf.Props.c66_deterministic"
   ],
   "note": "assumes that the underlying data is at most i64::MAX bytes long and that the stream positions do not overflow u64; a seek on the underlying device fails always or never (for the position asked for)"
  },
  {
   "property": "C67",
   "status": "proved",
   "theorems": [
    "Fourleaf.Props.c67_no_growth",
    "Fourleaf.Props.c67_shortest"
   ],
   "note": "All types without [u8; 0] and without a body read as (); examples show that both conditions are needed. The input is a message whose structs are all closed."
  },
  {
   "property": "C68",
   "status": "proved",
   "theorems": [
    "Fourleaf.Props.c68_any",
    "Fourleaf.Props.c68_sound",
    "Fourleaf.Props.c68_graceful",
    "Fourleaf.Props.c68_complete",
    "Fourleaf.Props.c68_exactly",
    "Fourleaf.Props.c68_exceptions",
    "Fourleaf.Props.c68_one",
    "Fourleaf.Props.c68_messages"
   ],
   "note": "Soundness for all bytes (with graceful EOF: on streams that do not seek, or for complete elements; a seeking stream does not notice that a blob is cut off, finding 1, c68_seek_example); the equivalence for input without exception elements. An exception is swallowed where a nested struct is ignored (finding 19): a document with exceptions in nested structs is read as the value of its fields, or the error is one of its exceptions (c68_exceptions)."
  },
  {
   "property": "C69",
   "status": "proved",
   "theorems": [
    "Fourleaf.Props.c69_received",
    "Fourleaf.Props.c69_sent",
    "Fourleaf.Props.c69_one_text",
    "Fourleaf.Props.c69_same_as_string"
   ],
   "note": "c69_sent: text written as an exception between any other elements, read back; c69_received: any message bytes, any spelling of the header; c69_one_text: the specification LossyText (replacement of maximal ill-formed pieces) determines the text; c69_same_as_string: agreement with the strict conversion of String fields."
  },
  {
   "property": "C70",
   "status": "proved",
   "theorems": [
    "Fourleaf.Props.c70_crash"
   ],
   "note": "Composition of the crash prefix (C22), sequential reading (C31) and rejection of truncated messages (C33), over the same file; graceful EOF off."
  },
  {
   "property": "C71",
   "status": "proved",
   "theorems": [
    "Fourleaf.Props.c71_commit",
    "Fourleaf.Props.c71_cut",
    "Fourleaf.Props.c71_next"
   ],
   "note": "a seek refused just when a blob is to be skipped: same state and results as with a successful seek; cut-off blob: exact error"
  },
  {
   "property": "C72",
   "status": "proved",
   "theorems": [
    "Fourleaf.Props.c72_no_panic",
    "Fourleaf.Props.c72_bounds",
    "Fourleaf.Props.c72_around",
    "Fourleaf.Props.c72_before_start"
   ],
   "note": "sessions of C55 extended by get_mut (any change of the byte stream), set_pos, stream_set_pos, set_struct_depth; examples show that each rule is needed"
  },
  {
   "property": "C73",
   "status": "proved",
   "theorems": [
    "Fourleaf.Props.c73_deserialize",
    "Fourleaf.Props.c73_client"
   ],
   "note": "Hypotheses: the stream is between elements, its reader is not beyond its end, and, if blobs are skipped by seeking, the reader's offset is not ahead of the tracked position."
  },
  {
   "property": "C74",
   "status": "proved",
   "theorems": [
    "Fourleaf.Props.c74_no_amplification"
   ],
   "note": "For success; graceful EOF off, or a stream that does not seek, or complete elements (a seeking stream with graceful EOF takes a blob that is cut off for complete, finding 1). Sizes are those of the model's values (V.nodes), not bytes of memory: an absent Option<[u8; 1024]> counts as one."
  },
  {
   "property": "C75",
   "status": "proved",
   "theorems": [
    "Fourleaf.Props.c75_deserialize",
    "Fourleaf.Props.c75_success",
    "Fourleaf.Props.c75_call"
   ],
   "note": "The schedule of the underlying stream has one event for each read; the theorems bound the number of events used up, for any schedule. std's read_to_end and io::copy ask for chunks of a size of their own choice, which is a short event of the schedule."
  },
  {
   "property": "C76",
   "status": "proved",
   "theorems": [
    "Fourleaf.Props.c76_reset_pos",
    "Fourleaf.Props.c76_client"
   ],
   "note": "c76_client via C73, with the same hypotheses on where the byte stream is (Placed); when the end of the document has not been read."
  },
  {
   "property": "C77",
   "status": "proved",
   "theorems": [
    "Fourleaf.Props.c77_no_panic_no_hang",
    "Fourleaf.Props.c77_bounds",
    "Fourleaf.Props.c77_copy"
   ],
   "note": "The effect of a copy (c77_copy) is stated for a destination whose offset is within its data, which it is unless the client has moved it past the end with seek."
  },
  {
   "property": "C78",
   "status": "proved",
   "theorems": [
    "Fourleaf.Props.c78_exact",
    "Fourleaf.Props.c78_default",
    "Fourleaf.Props.c78_default_any_input"
   ],
   "note": "c78_exact: iff, with the error, for every configuration (no side condition). c78_default: the default configuration with its documented numbers. c78_default_any_input: any input, also not written by this library."
  },
  {
   "property": "C79",
   "status": "proved",
   "theorems": [
    "Fourleaf.Props.c79_implicit",
    "Fourleaf.Props.c79_idempotent",
    "Fourleaf.Props.c79_history"
   ],
   "note": "For every state reached in a session (C55). skip_up included: the two runs differ in the fuel only, which is shown not to matter."
  },
  {
   "property": "C80",
   "status": "proved",
   "theorems": [
    "Fourleaf.Props.c80_layout",
    "Fourleaf.Props.c80_methods",
    "Fourleaf.Props.c80_unique"
   ],
   "note": "Layout (Layout.lean) transcribes the description in src/lib.rs 208-341 and src/sugar.rs as an inductive relation between types, values and trees of fields, independent of the model of the serialiser; the examples are those of the documentation. The documented exception is (), which is wrapped at the top level."
  },
  {
   "property": "C81",
   "status": "proved",
   "theorems": [
    "Fourleaf.Props.c81_forward",
    "Fourleaf.Props.c81_failing"
   ],
   "note": "The client loop is part of the statement (forward); the fields are those of Message, the later readers those of C54 (Accepts, Rejects)."
  },
  {
   "property": "C82",
   "status": "proved",
   "theorems": [
    "Fourleaf.Props.c82_client",
    "Fourleaf.Props.c82_deserialize",
    "Fourleaf.Props.c82_explicit_end"
   ],
   "note": "Reader arbitrary (any schedule) in the first two. Client programs are those of Prog without clear_eof. c82_explicit_end is for streams that do not seek (finding 1) and input without complete exception elements."
  },
  {
   "property": "C83",
   "status": "proved",
   "theorems": [
    "Fourleaf.Props.c83_written",
    "Fourleaf.Props.c83_written_element",
    "Fourleaf.Props.c83_written_field",
    "Fourleaf.Props.c83_written_variant",
    "Fourleaf.Props.c83_reads",
    "Fourleaf.Props.c83_no_level",
    "Fourleaf.Props.c83_reads_field",
    "Fourleaf.Props.c83_reads_field_back",
    "Fourleaf.Props.c83_reads_vec",
    "Fourleaf.Props.c83_reads_variant"
   ],
   "note": "Stated for types other than u8 where [T; 1] is used ([u8; 1] is a blob). c83_no_level: the recursion limit 0 rejects everything, the case that c83_reads leaves out."
  },
  {
   "property": "C84",
   "status": "proved",
   "theorems": [
    "Fourleaf.Props.c84_written",
    "Fourleaf.Props.c84_widen",
    "Fourleaf.Props.c84_never_different",
    "Fourleaf.Props.c84_narrow",
    "Fourleaf.Props.c84_to64",
    "Fourleaf.Props.c84_to32",
    "Fourleaf.Props.c84_machines"
   ],
   "note": "WideTy/WideEnv relate types and declarations that differ in integer widths; Ty.on32/Env.on32 are the 32-bit versions of a program's types (usize as u32, isize as i32). Bytes, acceptance by the wider type, exact acceptance by the narrower one, and both directions between machines."
  }
 ]
}