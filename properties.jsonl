{"id": "C01", "title": "Varint round trip", "statement": "Decoding the bytes that encode_u64 wrote for n yields n and consumes exactly those bytes: whatever follows them in the input is left untouched.", "quantifier": "every u64 n and every continuation of the input", "why_tests_cant": "2^64 values times unboundedly many continuations", "anchors": ["src/wire.rs:encode_u64", "src/wire.rs:decode_u64"]}
{"id": "C02", "title": "Denormalised varints are accepted", "statement": "Any LEB128-style byte group of at most 257 bytes (continuation bit on all but the last, trailing zero groups allowed) whose value is below 2^64 decodes to exactly that value and consumes exactly the group.", "quantifier": "every byte group and continuation", "why_tests_cant": "infinitely many spellings of each number, only canonical ones are ever written by tests", "anchors": ["src/wire.rs:decode_u64"]}
{"id": "C03", "title": "Oversized varints are rejected, never wrapped", "statement": "If a byte group denotes a value of 2^64 or more, decode_u64 returns IntegerOverflow; if it does not terminate within 257 bytes it returns OverwideInteger or IntegerOverflow; it never reads more than 257 bytes; a result is only ever the mathematical value of the bytes consumed.", "quantifier": "every byte sequence", "why_tests_cant": "the space of malformed groups is unbounded and wrap bugs occur at single bit patterns", "anchors": ["src/wire.rs:decode_u64"]}
{"id": "C04", "title": "Fixed-width varints", "statement": "encode_fixed_u64 writes exactly 10 bytes for every value and decode_u64 reads the same value back from them.", "quantifier": "every u64", "why_tests_cant": "2^64 values", "anchors": ["src/wire.rs:encode_fixed_u64", "src/wire.rs:decode_u64"]}
{"id": "C05", "title": "Canonical varints are shortest and injective", "statement": "encode_u64 writes between 1 and 10 bytes, never more than any other group of bytes that decodes to the same value, and two different values never share an encoding nor is one a prefix of the other.", "quantifier": "every pair of u64 values, every byte group", "why_tests_cant": "quantifies over pairs of values and over all alternative spellings", "anchors": ["src/wire.rs:encode_u64"]}
{"id": "C06", "title": "ZigZag is a bijection", "statement": "unzigzag(zigzag(i)) = i and zigzag(unzigzag(u)) = u, and zigzag(i) is 2i for i >= 0 and -2i-1 for i < 0, so small magnitudes get short encodings.", "quantifier": "every i64 and every u64", "why_tests_cant": "2^64 values", "anchors": ["src/wire.rs:zigzag", "src/wire.rs:unzigzag"]}
{"id": "C07", "title": "Descriptor parsing is total and inverse to construction", "statement": "Every byte parses to exactly one descriptor without reaching an unreachable!(), converting back gives the same byte, and every well-formed descriptor (tag 1..63) survives the trip through its byte.", "quantifier": "every byte, every descriptor", "why_tests_cant": "the property is about totality: no byte may reach the panic arm", "anchors": ["src/wire.rs:Descriptor::parse", "src/wire.rs:From<ParsedDescriptor>"]}
{"id": "C08", "title": "Token stream round trip", "statement": "If a program writes any sequence of fields, struct/enum starts, ends, exceptions and padding to a Stream, then a Stream reading the produced bytes via next_element returns exactly that sequence of elements with the same tags, values and blob contents.", "quantifier": "every finite sequence of write calls with valid tags and every blob content", "why_tests_cant": "unbounded sequences and nesting depth", "anchors": ["src/stream.rs:next_element", "src/stream.rs:write_u64", "src/stream.rs:write_struct", "src/stream.rs:write_enum", "src/stream.rs:write_blob_data"]}
{"id": "C09", "title": "Writers produce the documented byte format", "statement": "The bytes produced by a sequence of write calls are the concatenation, call by call, of the format documented in lib.rs: one descriptor byte (type in the top two bits, tag in the low six), then a base-128 integer, length-prefixed data, or nothing; signed integers are ZigZag-encoded first.", "quantifier": "every sequence of write calls on every sink", "why_tests_cant": "interoperability needs byte equality for all values", "anchors": ["src/stream.rs:write_desc", "src/stream.rs:write_u64", "src/stream.rs:write_blob_data", "src/stream.rs:write_enum"]}
{"id": "C10", "title": "Unread blob content is skipped", "statement": "After next_field/next_element returned a blob, whatever part of it the program read, sliced, seeked within or ignored, the next call to next_field/next_element returns the element right after the blob.", "quantifier": "every sequence of operations on the blob, every blob and continuation, seekable or not", "why_tests_cant": "histories of blob operations are unbounded", "anchors": ["src/stream.rs:skip_blob", "src/stream.rs:commit", "src/stream.rs:skip_by_seek", "src/stream.rs:skip_by_discard"]}
{"id": "C11", "title": "Position accounting", "statement": "pos() always advances by exactly the number of bytes consumed from (or written to) the underlying byte stream; in particular pos() minus its starting value equals the underlying offset minus its starting value after any sequence of operations.", "quantifier": "every history of reading or writing operations, including failed ones", "why_tests_cant": "histories are unbounded; partial failures are hard to enumerate", "anchors": ["src/stream.rs:StreamTracker", "src/stream.rs:pos"]}
{"id": "C12", "title": "Field position and depth reporting", "statement": "A field returned by next_field carries the byte offset of its own descriptor and the number of structs/enums currently open plus one; struct_depth() afterwards is that number plus one exactly if the field opens a struct or enum.", "quantifier": "every element sequence and every field in it", "why_tests_cant": "nesting is unbounded", "anchors": ["src/stream.rs:next_element_impl", "src/stream.rs:struct_depth"]}
{"id": "C16", "title": "Padding is transparent", "statement": "Inserting any number of padding bytes before any element changes nothing that a program using next_field can observe other than byte offsets.", "quantifier": "every token sequence, every padding pattern, every client program", "why_tests_cant": "patterns and programs are unbounded", "anchors": ["src/stream.rs:next_element_impl", "src/stream.rs:write_padding"]}
{"id": "C18", "title": "Blob handles are confined", "statement": "Through a Blob handle no operation reads, writes or positions outside [start_pos, end_pos]: reads return only bytes of the blob, writes change no other byte and never the total length, seeks land inside or fail without moving.", "quantifier": "every sequence of blob operations with any arguments (including extreme offsets)", "why_tests_cant": "arguments range over all of i64/u64 and histories are unbounded", "anchors": ["src/stream.rs:Blob::read", "src/stream.rs:Blob::write", "src/stream.rs:Blob::seek"]}
{"id": "C19", "title": "Reading never panics or hangs", "statement": "No sequence of reading calls on a Stream over any bytes panics or loops forever: every call returns a value or an Error.", "quantifier": "every byte sequence, every schedule of the reader (short reads, interruptions, failures), every client program using the reading API", "why_tests_cant": "robustness to hostile input is universal", "anchors": ["src/stream.rs:next_element_impl", "src/stream.rs:skip_up", "src/stream.rs:read_fully"]}
{"id": "C20", "title": "Position overflow is refused", "statement": "A blob whose length would move the position beyond u64::MAX is reported as an error and never wraps the position.", "quantifier": "every position and declared length", "why_tests_cant": "needs positions near 2^64", "anchors": ["src/stream.rs:check_advance_pos", "src/stream.rs:next_blob", "src/stream.rs:write_desc_with_blob_alloc"]}
{"id": "C21", "title": "Chunking independence of readers", "statement": "The result of any client program does not depend on how the underlying reader splits its data into chunks nor on how often it returns Interrupted.", "quantifier": "every client program, every input, every pair of schedules", "why_tests_cant": "schedules are unbounded", "anchors": ["src/stream.rs:StreamTracker::read", "src/stream.rs:skip_by_discard", "src/stream.rs:read_fully"]}
{"id": "C22", "title": "Short-write independence and crash prefix", "statement": "The bytes a sequence of write calls leaves behind do not depend on short writes or interruptions of the sink; if the sink fails at some point, what has been written is a prefix of the bytes of the successful run. With dynamic blobs: the steps before the one that failed are complete and can be read back, and of the failed one there is a prefix, for a dynamic blob perhaps with its length field not (entirely) replaced yet; nothing else has changed.", "quantifier": "every write sequence, every schedule, every failure point", "why_tests_cant": "crash points and schedules are unbounded", "anchors": ["src/stream.rs:StreamTracker::write", "src/wire.rs:encode_u64"]}
{"id": "C23", "title": "Incomplete allocated blobs are detected", "statement": "After write_blob_alloc(tag,len), if the blob has not been filled to exactly its end, every later write call and commit fails with IncompleteBlob of the missing byte count and emits nothing; once filled the stream continues normally.", "quantifier": "every length, every amount written, every later call", "why_tests_cant": "amounts and calls are unbounded", "anchors": ["src/stream.rs:check_at_end_of_blob", "src/stream.rs:commit"]}
{"id": "C24", "title": "Dynamic blobs", "statement": "After write_blob_dynamic, writing any data in any pieces and committing produces a blob field that reads back as exactly that data, leaves every byte before it unchanged and continues right after it.", "quantifier": "every data, every split into pieces, every previous content", "why_tests_cant": "unbounded data and histories", "anchors": ["src/stream.rs:write_blob_dynamic", "src/stream.rs:finish_dynamic_blob"]}
{"id": "C25", "title": "pad_to_align", "statement": "pad_to_align(a), a power of two, writes only padding bytes, fewer than a, and leaves the position a multiple of a.", "quantifier": "every position and alignment", "why_tests_cant": "all positions and alignments", "anchors": ["src/stream.rs:pad_to_align"]}
{"id": "C27", "title": "skip_up restores a depth", "statement": "skip_up(d) on a stream whose remaining input closes the open structs terminates with struct_depth() <= d, having consumed exactly up to the closing element.", "quantifier": "every nesting, every depth", "why_tests_cant": "unbounded nesting", "anchors": ["src/stream.rs:skip_up"]}
{"id": "C28", "title": "read_fully honours its limit", "statement": "read_fully(max) returns all remaining bytes of the blob, or LargeBlob without reading anything if there are more than max.", "quantifier": "every blob and limit", "why_tests_cant": "boundary at every size", "anchors": ["src/stream.rs:read_fully"]}
{"id": "C29", "title": "Value conversions are exact", "statement": "to_u8..to_u64, to_i8..to_i64, to_bool, to_null succeed exactly if the wire integer denotes a value of the type, return that value, and otherwise fail: nothing is ever truncated or sign-confused; non-integer values are refused.", "quantifier": "every wire integer and target type", "why_tests_cant": "2^64 integers per type", "anchors": ["src/stream.rs:to_int!", "src/stream.rs:to_bool", "src/stream.rs:to_null"]}
{"id": "C30", "title": "Serialise/deserialise round trip", "statement": "For every type composed from the built-in implementations, deserialising what to_vec produced returns an equal value, as long as the value fits the configured limits.", "quantifier": "every composed type (all nestings of integers, bool, char, strings, bytes, options, vectors, deques, lists, sets, maps, arrays, tuples, boxes, ...), every value within the limits", "why_tests_cant": "types and values are both unbounded", "anchors": ["src/ser.rs:to_vec", "src/de.rs:from_slice", "src/ser_des_builtin_tests.rs"]}
{"id": "C31", "title": "Sequential values", "statement": "Several values written to one stream as consecutive elements/documents are read back in order by consecutive deserialisations, each starting right where the previous one stopped.", "quantifier": "every list of values", "why_tests_cant": "unbounded lists", "anchors": ["src/ser.rs:to_stream", "src/de.rs:from_stream"]}
{"id": "C32", "title": "Serialize contract", "statement": "Every built-in Serialize implementation writes a balanced body closed by exactly one end marker, exactly one field for an element, and only fields with the given tag for a field.", "quantifier": "every built-in type and value", "why_tests_cant": "needed by every generic container that embeds the output", "anchors": ["src/ser.rs:Serialize"]}
{"id": "C33", "title": "Truncated messages are rejected", "statement": "Every proper prefix of a message for a type fails to deserialise (when graceful EOF is off) with an error; it never yields a value. With graceful EOF on, on a stream that does not seek, the same holds of every prefix that ends within an element.", "quantifier": "every type, value and cut point", "why_tests_cant": "all cut points of all messages", "anchors": ["src/de.rs:from_slice", "src/de.rs:from_reader"]}
{"id": "C34", "title": "Trailing input is untouched", "statement": "Deserialising a value from a stream does not depend on, and does not consume, the bytes after its closing element: whether it succeeds or fails, the outcome and the place where the stream is left are the same whatever follows.", "quantifier": "every message, every trailing bytes, every client program", "why_tests_cant": "unbounded continuations", "anchors": ["src/de.rs:from_stream"]}
{"id": "C35", "title": "Collection limit", "statement": "Deserialisation never accumulates more collection elements than max_collect across the whole message; exceeding it is an error.", "quantifier": "every input, type and limit", "why_tests_cant": "hostile inputs are unbounded", "anchors": ["src/de.rs:Config", "src/de.rs:Context::collect"]}
{"id": "C36", "title": "Blob limit", "statement": "Deserialisation never buffers more blob bytes than max_blob across the whole message; a larger total is an error raised before the bytes are read.", "quantifier": "every input, type and limit", "why_tests_cant": "hostile inputs are unbounded", "anchors": ["src/de.rs:Config", "src/de.rs:Context::blob"]}
{"id": "C37", "title": "Recursion limit", "statement": "The nesting of deserialisation contexts never exceeds recursion_limit; deeper input is an error, so input cannot overflow the stack.", "quantifier": "every input, type and limit", "why_tests_cant": "hostile inputs are unbounded", "anchors": ["src/de.rs:Context::push"]}
{"id": "C38", "title": "Field order independence", "statement": "Permuting the fields of a message for a struct or tuple type without changing the relative order of equal tags does not change the result.", "quantifier": "every message and every such permutation", "why_tests_cant": "factorially many orders", "anchors": ["src/de.rs:des_struct_body", "src/sugar.rs:fourleaf_retrofit"]}
{"id": "C39", "title": "Unknown fields", "statement": "With ignore_unknown_fields, adding fields with tags the type does not know (of any shape) anywhere in a struct does not change the result; without it, they are an error.", "quantifier": "every struct type, message and added field tree", "why_tests_cant": "all field trees at all places", "anchors": ["src/de.rs:Context::unknown_field", "src/de.rs:des_struct"]}
{"id": "C40", "title": "Cardinality errors", "statement": "A required field that is missing or occurs twice is an error; an optional field occurring twice is an error; a collection accepts any count.", "quantifier": "every message", "why_tests_cant": "all multiplicities and positions", "anchors": ["src/de.rs:des_unary", "src/de.rs:Option", "src/de.rs:Vec"]}
{"id": "C41", "title": "Compatible type changes", "statement": "Data written as an integer type reads as any wider type of the same signedness, and as a narrower one exactly if the number is in its range; a T field reads as Option<T> and as Vec<T> (except byte vectors, which are special-cased), but not inside a collection, and not as a whole message that is a struct; a vector reads as a set of its elements or (if of pairs) as a map; what is written for a set or a map reads as a vector of its elements or pairs, wherever it occurs; the elements of sets and the keys and values of maps may change in these ways as well; so may types nested anywhere in structs, tuples and enum variants. Boxing a field changes nothing, variants may be added to an enum (or replaced by a catch-all), and a struct that delegates to a type may be replaced by it. A collector of unknown fields may be kept (it gets the same fields), removed (if unknown fields are ignored) or added. Fields may be added (if optional or collections), reordered, renamed and deleted (if unknown fields are ignored, or collected: then the collector gets them). A change of signedness is not compatible.", "quantifier": "every value and type T", "why_tests_cant": "all values and types", "anchors": ["src/de.rs", "src/lib.rs"]}
{"id": "C42", "title": "UnknownFields preserve data", "statement": "Any well-formed struct body deserialises as UnknownFields to its tree, and serialising that produces a canonical message with the same tree; doing it again changes nothing.", "quantifier": "every tree, every encoding", "why_tests_cant": "unbounded trees", "anchors": ["src/unknown.rs"]}
{"id": "C43", "title": "Unknown-preserving edit", "statement": "Deserialising a struct with an unknown-field collector and serialising it again keeps every field it did not know, with equal content.", "quantifier": "every struct declaration, message and unknown fields", "why_tests_cant": "unbounded trees", "anchors": ["src/sugar.rs", "src/unknown.rs"]}
{"id": "C44", "title": "Map and set semantics", "statement": "Deserialising a map keeps for each key the value of its last occurrence; a set contains exactly the distinct elements; the result does not depend on duplicates.", "quantifier": "every sequence of entries", "why_tests_cant": "unbounded sequences", "anchors": ["src/de.rs:des_map", "src/de.rs:des_push_seq"]}
{"id": "C45", "title": "Deserialisation is total", "statement": "For any bytes and any built-in type, deserialisation returns a value or an Error: it never panics, hangs, or reads outside the input.", "quantifier": "every type, config, input, schedule", "why_tests_cant": "hostile inputs are unbounded", "anchors": ["src/de.rs"]}
{"id": "C46", "title": "Values are valid", "statement": "A deserialised String is valid UTF-8 with exactly the bytes of the blob, a char a Unicode scalar value, an array has exactly its length, otherwise an Error is returned.", "quantifier": "every input", "why_tests_cant": "all byte strings", "anchors": ["src/de.rs"]}
{"id": "C47", "title": "Zero-copy and copying agree", "statement": "Borrowed slices and strings are sub-ranges of the input with the same content that copying deserialisation returns, and both consume the same field. On any bytes whatever, borrowing and copying deserialisation give the same value or the same error at the same place, except that copied bytes count against the limit on bytes, and that both may fail differently if the input is cut off inside a blob.", "quantifier": "every input, type and limits", "why_tests_cant": "all inputs", "anchors": ["src/de.rs", "src/stream.rs:ext_slice"]}
{"id": "C48", "title": "Retrofit enums", "statement": "An enum written by a fourleaf_retrofit! implementation reads back as the same variant with the same fields; an unknown discriminant is an UnknownVariant error unless there is a catch-all variant, which preserves discriminant and fields.", "quantifier": "every declaration, value and discriminant", "why_tests_cant": "all declarations", "anchors": ["src/sugar.rs"]}
{"id": "C50", "title": "Error paths extend the context", "statement": "An error reported by a nested deserialisation carries the path of the enclosing contexts as prefix, so the reported location is inside the value being read.", "quantifier": "every input, type and depth", "why_tests_cant": "all nested error sites", "anchors": ["src/de.rs:Context", "src/de.rs:Error"]}
{"id": "C51", "title": "Invalid tags", "statement": "In a debug build every write call with tag 0 or a tag above 63 panics before it has written anything of its own (only what was pending is committed), and all calls with valid tags behave exactly as in a release build. In a release build, contrary to the documentation, such a call is executed, but the descriptor it writes never reads back as the requested one: every field any reader is handed has a tag in 1..63.", "quantifier": "every write call, every tag outside 1..63, every stream state; for the reading part every input", "why_tests_cant": "it ranges over all calls, tags, stream states and inputs, and over two builds of the same code", "anchors": ["src/stream.rs:write_desc", "src/wire.rs:From<ParsedDescriptor>"]}
{"id": "C52", "title": "Deserialised values are serialisable", "statement": "Whatever value deserialisation returns for whatever input (any spelling, order of fields, unknown fields), serialising it and deserialising the result under the same configuration returns the same value.", "quantifier": "every type, configuration, input and reader behaviour", "why_tests_cant": "ranges over all inputs that are accepted, including non-canonical ones", "anchors": ["src/de.rs", "src/ser.rs"]}
{"id": "C53", "title": "Limits only reject", "statement": "Raising a limit (or allowing unknown fields) never changes a value that was accepted; the outcome differs only where the stricter configuration reported that limit, or both report the same error.", "quantifier": "every type, input and pair of configurations", "why_tests_cant": "compares two executions for all inputs", "anchors": ["src/de.rs: Config, Context"]}
{"id": "C54", "title": "Reading follows the specification", "statement": "A message is accepted as a value exactly if a declarative specification of the format (each declared field read on its own from the list of its occurrences, one rule per type) relates them and the limits suffice; otherwise an Error is returned, whatever the spelling of the message and the delivery of the reader.", "quantifier": "every type, declaration, config, message, spelling and stream", "why_tests_cant": "all types, messages and schedules", "anchors": ["src/de.rs", "src/sugar.rs", "src/unknown.rs"]}
{"id": "C55", "title": "Any session is free of panics and hangs", "statement": "Whatever sequence of Stream and Blob calls a client makes (reading, writing, seeking, reset_pos, allocating or dynamic blobs, operations on the blob last returned, in any mixture and going on after errors), each call returns with a result or an Error. The only panics are: slice after Blob::seek moved beyond truncated data, pad_to_align with an argument that is not a power of two, and a dynamic blob started within 11 bytes of u64::MAX. The position never passes u64::MAX and, while a blob handle is held, stays within the blob.", "quantifier": "every history of calls, underlying byte stream (contents, seekability, failures, chunking) and argument", "why_tests_cant": "ranges over all call histories and reader/writer schedules", "anchors": ["src/stream.rs: Stream (all public calls), Blob, commit, finish_dynamic_blob, seek, reset_pos"]}
{"id": "C56", "title": "Std types", "statement": "IP addresses, socket addresses, Duration and Result are written as documented (addresses as blobs of octets in network byte order, enums with discriminants 4/6 and 1/2), are read back as the same value, and whatever input is accepted, constructing the std value from the fields succeeds; a Duration is accepted exactly if it has one secs and one nsecs field and nsecs < 10^9.", "quantifier": "every value of the types, every input, spelling, configuration and stream", "why_tests_cant": "2^128 addresses; all inputs", "anchors": ["src/retrofit.rs"]}
{"id": "C57", "title": "Random access", "statement": "A successful seek on a Stream, whatever has happened to it before, leaves it as if just opened over the data at the target (pending work committed, depth 0), except that the end-of-document flag stays set; a failed seek only commits. It succeeds exactly if committing does, the byte stream can seek and does not fail just now, and the target is within 0..=u64::MAX. Seeking back to the position and depth a field reported makes next_field return that field again, and everything any client reads from there is what it would have read the first time. Elements written to a stream can be read back from that same stream by seeking to the position before any of the writes.", "quantifier": "every history of calls, every input, chunking and client program; every mixture of writing calls and every position between them", "why_tests_cant": "histories, inputs and clients are unbounded; stale bookkeeping (pending blobs, old ends) only shows after particular histories", "anchors": ["src/stream.rs:seek", "src/stream.rs:reset_pos", "src/stream.rs:set_struct_depth", "src/stream.rs:clear_eof"]}
{"id": "C58", "title": "A failing reader is reported and never changes what is read", "statement": "If the underlying reader may fail with an I/O error at any point, then a call on the stream, a deserialisation, or any client which passes on its errors, returns what it would return over a reader that does not fail, or returns that I/O error. A failure is never taken for the end of the input, of a blob or of the document, and never yields a different value. (One case is different: if the byte stream fails to seek, a blob is skipped by reading, so that a blob which is cut off by the end of the input is reported as truncated, where a successful seek past the end would have gone unnoticed until the next read.)", "quantifier": "all inputs, stream states reachable by reading, calls, types, limits, and all schedules of short reads, interruptions failures and failing seeks", "why_tests_cant": "A test injects failures at a few points of a few inputs; the claim is about every failure point of every input for every type.", "anchors": ["src/stream.rs: next_element_impl, next_field, commit, skip_blob, skip_by_discard, read_fully, read_or_trunc, Blob::read", "src/de.rs: deserialize_body and all implementations"]}
{"id": "C59", "title": "A call which failed at a boundary can be repeated", "statement": "If commit, next_element or next_field failed because the reader failed while the rest of a blob was skipped, or before any of the next header was read, then repeating the call once the reader works has the outcome, and leaves the stream in the state, which it would have had without the failure. No byte of a blob is skipped twice.", "quantifier": "all reading states whose pending blob is complete in the input, all points of failure, all later behaviour of the reader", "why_tests_cant": "The state after a partial skip depends on where the failure happened; tests try a few.", "anchors": ["src/stream.rs: commit, skip_blob, skip_by_discard, skip_by_seek, next_element_impl, next_field"]}
{"id": "C60", "title": "Blob handles know where they are", "statement": "While a client holds a blob handle, however it was obtained (reading, allocating, dynamic) and whatever calls were made: the accessors len, remaining, stream_pos, start_pos, end_pos, inner_pos never panic; len = end_pos - start_pos, inner_pos + remaining = len, start_pos + inner_pos = stream_pos; len, start_pos and end_pos never change; reading n bytes or writing n bytes moves inner_pos by exactly n, slices do not move it, and after a seek inner_pos is what seek returned.", "quantifier": "all sessions (any sequence of calls, any input, any schedule of the underlying stream), all sequences of operations on the handle", "why_tests_cant": "The accessors are subtractions that underflow as soon as any call leaves the position outside the blob; only an invariant over all histories rules that out.", "anchors": ["src/stream.rs: Blob::len, remaining, stream_pos, start_pos, end_pos, inner_pos", "src/stream.rs: Read, BufRead, Write, Seek for Blob"]}
{"id": "C15", "title": "Graceful EOF only at element boundaries", "statement": "With graceful EOF enabled, end of input where a descriptor is expected (after any padding, for next_field) acts as an explicit EndOfDoc; without it, it is an error. End of input inside the header of an element (inside an integer, discriminant or length) is an error in both cases. End of input inside the content of a blob or exception: the element is returned, and when the rest of it is skipped by reading, TruncatedBlob reports exactly the number of missing bytes; when it is skipped by seeking (new_seek, from_slice), the seek beyond the end succeeds and the end is found at the next descriptor (finding 1).", "quantifier": "every input, every cut point of every spelling of an element, every history of reading calls before it, every use of the blob", "why_tests_cant": "every cut point of every message", "anchors": ["src/stream.rs:StreamTracker::read", "src/stream.rs:set_graceful_eof", "src/stream.rs:skip_blob", "src/stream.rs:skip_by_seek"]}
{"id": "C61", "title": "Errors describe a defect of the message, at its place", "statement": "If a complete message fails to deserialise, the returned error is true: the message has a defect of the reported kind (undeclared field, missing field, too few or too many occurrences, wrong kind of field, value out of range, invalid UTF-8, wrong array length, unknown variant, nesting limit, refused by the constructor, exceeded limit) at the place described by the path, whose entries are the names of the enclosing fields with the positions in the stream where these fields start (for a missing field: the position behind the message it is missing from). Conversely a message with such a defect is never accepted, and the collect and blob limits are only reported if the message has more fields or blob bytes than the limit.", "quantifier": "all declared types, configurations, messages in any spelling, stream positions and following bytes", "why_tests_cant": "error reports depend on the whole path of nested contexts and on the history of the fields before; tests look at a few messages", "anchors": ["src/de.rs:Context", "src/de.rs:Error", "src/de.rs:Deserialize", "src/sugar.rs:fourleaf_retrofit"]}
{"id": "C62", "title": "The format is unambiguous", "statement": "Bytes spell at most one sequence of elements; at most one message, with one extent, starts at the front of given bytes, so no message is a proper prefix of another; two different values of a type are never serialised to the same bytes nor one to a prefix of the other.", "quantifier": "all byte strings, messages in any (denormalised, padded) spelling, all types and values", "why_tests_cant": "ambiguity would concern pairs of arbitrary inputs", "anchors": ["src/wire.rs:decode_u64", "src/wire.rs:ParsedDescriptor", "src/stream.rs:next_element", "src/ser.rs:Serialize"]}
{"id": "C49", "title": "Strict mode", "statement": "Deserialising what was serialised gives back the value also with ignore_unknown_fields = false, unless the type is () (possibly boxed) or a declaration delegates to (). Reading back (), boxed or behind structs delegating to it, fails with UnknownField. Exactly: with limits that suffice, the values read back are those which nowhere have () in the place of a message (as the whole message, or as what a struct or enum variant delegates to), and all others fail with UnknownField.", "quantifier": "every type and value, every stream the message is read from", "why_tests_cant": "all types and values; one type, (), breaks it", "anchors": ["src/ser.rs:()", "src/de.rs:()"]}
{"id": "C63", "title": "Nothing is read ahead", "statement": "The reader is never asked for bytes which are not needed: if a value (or the error of a wrong message) is obtained from some bytes, then it is obtained from a reader which delivers these bytes, in pieces as small as one byte and with interruptions, and would block or fail if it was asked for anything beyond. The same holds for any client of the stream, up to the bytes it has consumed in the end.", "quantifier": "every client program, message, type, stream, delivery, and later behaviour of the reader (except that its very next call is not a failing seek: this is an answer to a call not asking for bytes)", "why_tests_cant": "the amount requested depends on the position of every read within the message and on the delivery; a test sees one of them", "anchors": ["src/stream.rs:StreamTracker::read", "src/stream.rs:Stream::next_field", "src/stream.rs:Blob::read", "src/wire.rs:decode_u64", "src/de.rs:Deserialize"]}
{"id": "C64", "title": "The location in an error is unambiguous", "statement": "The location string in an error of the deserialiser (such as {0}.field_0{1}.b{4}) determines the names and positions of all fields from the outermost to the one concerned; the text of the context in which something is deserialised is a prefix of the location in its errors.", "quantifier": "every pair of errors from any programs, declarations with identifiers as names, types, configurations and inputs", "why_tests_cant": "ranges over all nestings, names, positions and inputs", "anchors": ["src/de.rs:Display for Context", "src/de.rs:Context::push", "src/de.rs:Context::push_tag", "src/de.rs:Error", "src/sugar.rs:fourleaf_retrofit"]}
{"id": "C65", "title": "Old programs can edit new data", "statement": "A program whose types are older than the data (missing fields are collected as unknown fields, missing enum variants go to a catch-all variant) can read every message the newer program reads, and when it changes a field and writes the value back, the newer program reads its own value with exactly this field changed: nothing the old program does not know is lost or altered, at any depth. Without a change the newer program reads its own value.", "quantifier": "every pair of versions of a set of types, every message, every edit of a field", "why_tests_cant": "ranges over all pairs of types and all messages; compares two programs", "anchors": ["src/lib.rs: Unknown fields", "src/unknown.rs: UnknownFields", "src/sugar.rs: fourleaf_retrofit"]}
{"id": "C66", "title": "A blob is a file of its own, and can be edited in place", "statement": "The handle of a blob behaves exactly like a file of fixed size holding the blob's content: every read, write, seek, slice, slice_mut and buffered read returns what it returns on such a file (reads and writes stop at the end of the blob, a seek to before its beginning or past its end is refused; a device which is full or refuses to seek is reported and changes nothing), and afterwards the underlying data differs from before only in the content of the blob, which is that of the file. Hence a client which reads a document and writes to the handles of its blobs sees the elements of the document in order, and leaves a document with the same elements except for the contents written, which a later reader gets back. Over data in memory the outcome is determined.", "quantifier": "every stream with a blob handle, content, surrounding data, behaviour of the underlying device and sequence of operations; every document in every spelling and every sequence of operations per element", "why_tests_cant": "The states are all interleavings of reads, writes and seeks with short transfers, interruptions and failures; an off-by-one at either end of the blob shows only for particular combinations.", "anchors": ["src/stream.rs: Blob, Read for Blob, Write for Blob, Seek for Blob, BufRead for Blob, Blob::slice, Blob::slice_mut, Blob::remaining", "src/io.rs: AsExtBytes, Read, Write, Seek"]}
{"id": "C67", "title": "Writing a message again never makes it longer", "statement": "If a message of any shape (padding, overlong integers, unknown or repeated fields, duplicate keys) deserialises to a value, then what is serialised for that value is at most as long as the message, and the same reader with the same limits reads it as the same value; the serialised form is the shortest of all messages that are read as the value. (Exceptions: [u8; 0] and a body read as (), whose messages have a field that the reader does not insist on.)", "quantifier": "every set of declarations, every type, every configuration, every message and every value read from it", "why_tests_cant": "A statement about all messages that are read as a given value; there are infinitely many of them, through padding, overlong integers and unknown fields", "anchors": ["src/ser.rs: serialize_body", "src/de.rs: from_stream", "src/wire.rs: encode_u64", "src/stream.rs: Stream::write_u64"]}
{"id": "C68", "title": "Exactly the well-formed documents are accepted, out of all byte strings", "statement": "Deserialising arbitrary bytes succeeds exactly if they begin with a document (fields, padding, nested structs and enums, closed by the end of the struct or by an end-of-document element, which closes all open structs) whose fields the declarations say are read as a value within the limits; then that value is returned, exactly that document has been consumed, and the stream is at eof exactly if an end-of-document element closed it. Otherwise an error is returned. At most one document is at the front of given bytes. (For input with exception elements: what is accepted is such a document with exceptions in nested structs; and such a document is read as the value of its fields, exactly it being consumed, or the error is one of its exceptions.) With graceful EOF, the end of the input also closes a document, if it is not within an element (on streams that do not seek).", "quantifier": "every set of declarations, every type, every configuration, every input byte string of any length and content, every way the reader delivers it", "why_tests_cant": "The space of byte strings is infinite; almost all of them are invalid in some way, and a test shows only that particular invalid inputs are rejected", "anchors": ["src/de.rs: from_stream", "src/de.rs: deserialize_body", "src/stream.rs: Stream::next_field", "src/stream.rs: Stream::next_element", "src/stream.rs: Stream::skip_up", "src/wire.rs: decode_u64"]}
{"id": "C69", "title": "Exception messages arrive as text", "statement": "The text of Error::Exception is the message itself if it is UTF-8 of at most 256 bytes; a longer text arrives as the characters that lie completely within its first 256 bytes, followed by one U+FFFD if a character was cut there; and an arbitrary message arrives with each maximal piece that is not UTF-8 replaced by one U+FFFD (so a text without U+FFFD is exactly what was sent, up to 256 bytes). Reading then continues with what follows.", "quantifier": "every message (text or arbitrary bytes) of any length, every sequence of elements before and after it, every way the stream transfers bytes", "why_tests_cant": "messages of unbounded length and arbitrary bytes; the boundary at 256 bytes can fall inside any character", "anchors": ["src/stream.rs: next_field, read_or_trunc, write_exception"]}
{"id": "C17", "title": "Exceptions surface as errors and the stream continues", "statement": "next_field on an exception returns Error::Exception with the text of at most the first 256 bytes of the message, and subsequent calls continue right after the complete message, however long.", "quantifier": "every message length and content, every continuation", "why_tests_cant": "message length unbounded; boundary at 256", "anchors": ["src/stream.rs:next_field", "src/stream.rs:read_or_trunc"]}
{"id": "C26", "title": "Copying elements between streams", "statement": "Reading elements from one Stream and passing each to write_element of another reproduces the same element sequence, in canonical encoding, for any valid (even denormalised) source. Whatever reader and writer do (short transfers, interruptions, failures), the destination has at any time received a prefix of that encoding. A blob which is cut off in the source, or whose handle the client has already moved, is not accepted by the destination as complete.", "quantifier": "every element sequence, every encoding of it, every behaviour of the reader and the writer, every use of the handle before the copy", "why_tests_cant": "unbounded sequences, spellings and schedules", "anchors": ["src/stream.rs:write_element", "src/stream.rs:write_field"]}
{"id": "C70", "title": "A log of values survives a crash", "statement": "A program appends values to a file, one message after the other, until the sink fails or the process dies, at any point, and the file may lose any part of the end of what was written. A program that opens the file and reads the values one after the other gets exactly the values whose messages are completely there, in order, and then an error, whatever type it tries to read: never a wrong value or a part of one. If it cuts the file off behind the values it got and appends the others, the file is byte for byte what it would have been without the crash.", "quantifier": "every list of values of any types, every failure point and behaviour of the sink, every amount of lost data, every delivery by the reader", "why_tests_cant": "The crash point, the loss and the splitting of transfers are arbitrary; a test tries a few.", "anchors": ["src/ser.rs:to_stream", "src/de.rs:from_stream", "src/stream.rs:commit"]}
{"id": "C71", "title": "A failing seek is made up for by reading", "statement": "If a stream skips blobs by seeking and a seek fails while the byte stream can still be read, the rest of the blob is read instead: commit succeeds, next_element and next_field return exactly what they return when the seek succeeds, and the stream is left in the same state. If the input ends inside of the blob, the error tells how many bytes are missing.", "quantifier": "every state of a seeking stream in which a blob is partly or entirely unread, every input, and every delivery (chunking, interruptions) of the bytes after the failed seek", "why_tests_cant": "needs a byte stream whose seek fails on demand, at every point of every input and for every way of delivering the bytes afterwards", "anchors": ["src/stream.rs:skip_by_seek", "src/stream.rs:skip_by_discard", "src/stream.rs:skip_blob", "src/stream.rs:commit"]}
{"id": "C72", "title": "Going around the stream", "statement": "The byte stream handed out by get_mut/stream_get_mut may be used in any way, and position and depth may be set with set_pos, stream_set_pos and set_struct_depth, mixed with all other calls and going on after errors, as long as the position is not set outside of the blob being processed and the depth not after the end of the document: every call returns with a result or an Error (with the same exceptions as otherwise: padding to a non-power of two, a dynamic blob without room for its header, slicing a buffer with an offset beyond its end), and handles stay within their blobs. Transferring bytes of a blob directly and then calling stream_set_pos has the effect of transferring them with the handle. A dynamic blob whose position was set before its start is refused and nothing is written.", "quantifier": "every byte stream and everything done to it, every history of calls", "why_tests_cant": "histories and uses of the byte stream are unbounded; the interaction of the tracked positions with them is what goes wrong", "anchors": ["src/stream.rs:get_mut", "src/stream.rs:set_pos", "src/stream.rs:set_struct_depth", "src/stream.rs:stream_set_pos", "src/stream.rs:stream_get_mut"]}
{"id": "C13", "title": "Skipping a field lands right after it", "statement": "Field::skip() on any field (including a struct or enum with arbitrarily nested contents), whatever part of it has been read already, makes the next read return the element that follows the whole field at the same depth.", "quantifier": "every well-formed field tree, every part of it read before the skip, and every continuation", "why_tests_cant": "trees are unbounded", "anchors": ["src/stream.rs:Field::skip", "src/stream.rs:skip_up"]}
{"id": "C73", "title": "It does not matter where in the stream the bytes lie", "statement": "Two streams have the same bytes ahead (well-formed or not, with the same behaviour of the reader), but are at different positions and have different bytes behind them. Deserialising gives the same value, from as many bytes, or the same error with every position in it (path, unknown field) shifted by the difference of the positions; more generally whatever a client does that looks at positions relative to where it started, going on after errors or not, has the same outcome; unless one of the streams runs out of u64 positions.", "quantifier": "every pair of positions and offsets, everything behind, every input (malformed too), reader behaviour, type, configuration and client program", "why_tests_cant": "positions enter every bounds computation of blobs and the choice between seeking and reading; inputs and positions are unbounded", "anchors": ["src/stream.rs:check_advance_pos", "src/stream.rs:skip_by_seek", "src/stream.rs:next_blob", "src/de.rs:Context"]}
{"id": "C74", "title": "A small message is not read as a large value", "statement": "Whatever bytes are deserialised, the value read is at most larger by a constant factor than what was consumed of them: its size (one for each number, character, collection, option, tuple, struct or enum, and one for each byte of a string) is at most (recursion limit + 66) times (bytes consumed + 1). The factor does not depend on the declarations or on the type, so no input makes the deserialiser build a value out of proportion to the input.", "quantifier": "every set of declarations, every type, every configuration, every input byte string of any length and content, every way the reader delivers it", "why_tests_cant": "Amplification attacks are found in unexpected combinations of nesting, repeated, optional, delegated and unknown fields; tests can only try some", "anchors": ["src/de.rs: from_stream", "src/de.rs: Deserialize impls", "src/sugar.rs: fourleaf_retrofit", "src/unknown.rs: UnknownFields"]}
{"id": "C75", "title": "The reader is not called in vain", "statement": "Deserialising a value calls the underlying reader at most once for each byte by which the stream advances, plus two calls, whether it succeeds or fails; calls which the reader interrupts (and seeks it refuses) come on top. When a value is returned, every call that was not interrupted brought at least one byte, except for the one that found the end of the input where graceful EOF lets it end the document. Each single call of the reading API (next_field, next_element, skip_up, commit, read_fully, read_or_trunc, read, slice) keeps the bound with one call in vain.", "quantifier": "all inputs, types, configurations, stream states, and behaviours of the reader (any chunking, interruptions, failures, failing seeks)", "why_tests_cant": "a test counts the calls for one input and one chunking; that no input makes the library poll an ended or slow reader over and over is a statement about all of them", "anchors": ["src/stream.rs: next_element_impl, skip_blob, skip_by_seek, skip_by_discard, Blob::read_fully", "src/wire.rs: decode_u64, read_byte", "src/de.rs: from_reader"]}
{"id": "C76", "title": "Renumbering the positions changes nothing else", "statement": "reset_pos, after whatever has been done with a stream, does what commit does and fails exactly if that fails; otherwise pos() is the given position, and the byte stream, the depth, the end-of-document and the graceful-EOF flags are as after commit. Whatever a client then does that looks at positions relative to the new one, and whatever it deserialises, has the outcome it would have had after commit (positions in errors off by the difference), unless the u64 positions run out.", "quantifier": "every history of calls, every input and reader behaviour, every new position, every client program, type and configuration", "why_tests_cant": "pending blobs, dynamic blobs and the end of the last blob are all kept in terms of positions; histories and positions are unbounded", "anchors": ["src/stream.rs:reset_pos", "src/stream.rs:commit"]}
{"id": "C14", "title": "EOF is sticky and does no I/O", "statement": "Once eof() is true, next_field returns None and next_element returns EndOfDoc forever, without touching the underlying byte stream, until clear_eof() is called, whatever other calls (writing, seeking, set_graceful_eof, commit, blob operations) are made in between; none of these sets the flag or, seeking aside, changes the depth. clear_eof() then leaves a stream which reads on from the same place, outside any structure; called at any other time it has no effect.", "quantifier": "every state with the flag set, every number of calls, even if the underlying reader would fail, and every session: any list of calls before and after", "why_tests_cant": "no I/O means: for every possible reader behaviour", "anchors": ["src/stream.rs:next_element_impl", "src/stream.rs:eof", "src/stream.rs:clear_eof"]}
{"id": "C77", "title": "Several streams with blobs copied among them", "statement": "A client may hold any number of Streams, make any calls on each, and pass blobs it holds from one to write_field/write_element of another (even partly read ones, several times, under another tag or as an exception), going on after errors. Every call returns (the only panics are those of C55); positions stay within u64 and within the blob held. A copy touches no third stream and keeps the source's handle usable; if the destination cannot complete what is pending on it, the copy fails with that error and the source is untouched; otherwise the destination gets, where it stands, the descriptor, the blob's full length and what is left of the blob, or a prefix of that if the call fails, and accepts it as complete only if nothing is missing.", "quantifier": "every number of streams, every byte stream under each, every history of calls and copies", "why_tests_cant": "unbounded interleavings of histories on several streams", "anchors": ["src/stream.rs:write_field", "src/stream.rs:write_element", "src/stream.rs:Blob"]}
{"id": "C78", "title": "Which values are read back, exactly; the defaults", "statement": "What was serialised for a value is read back if and only if the value is within the limits of the configuration: at most recursion_limit levels of nesting, max_collect elements of collections and max_blob copied bytes in the whole value, and unknown fields are ignored if it has () in the place of a message; otherwise the error names a limit which the value does exceed, or is an unknown field of such a (). With the default configuration these limits are 32, 256 and 65536, whatever the input no value beyond them is returned, no error path is longer than 32, and unknown fields are never reported.", "quantifier": "every set of declarations, every type, every value, every configuration; for the defaults also every input and reader", "why_tests_cant": "The boundary is a relation between a value of any shape and three numbers; tests try single values at single limits.", "anchors": ["src/de.rs Config", "src/de.rs Config::default", "src/de.rs Context::push", "src/de.rs Context::collect", "src/de.rs Context::blob"]}
{"id": "C79", "title": "Commit is implicit", "statement": "Every call which reads or writes data (next_element and next_field unless the end of the document has been read, skip_up to a lesser depth, every write_* call, pad_to_align, seek, reset_pos) first does what commit() does: if commit() would succeed, calling it before makes no difference to the outcome of the call, to the resulting stream, or to anything later; if it would fail, the call fails with the same error and leaves the same stream. After a successful commit() another one has no effect at all.", "quantifier": "every history of calls with any outcomes, every reader/writer, every call, everything done afterwards", "why_tests_cant": "A test fixes one pending operation and one following call; the claim is about all combinations of what can be pending (an unread, partly written or dynamic blob, in any position of any I/O schedule) with all calls.", "anchors": ["src/stream.rs: Stream::commit", "src/stream.rs: Stream::next_element", "src/stream.rs: Stream::write_desc", "src/stream.rs: Stream::skip_up", "src/stream.rs: Stream::seek", "src/stream.rs: Stream::reset_pos"]}
{"id": "C80", "title": "What is written has the documented form", "statement": "The message that serialisation writes for a value has exactly the fields the documentation describes: collections in a struct field are repetitions of the field, in a collection element they are wrapped in a struct with tag 1; byte slices, strings are blobs, signed integers are ZigZagged, maps are laid out as slices of pairs, tuples as structs with tags from 1, pointers as what they point to, enums as discriminant and fields, delegated and preserved unknown fields in their places; everything that is not a struct gets wrapped in a single-field struct at the top level. The form is unique, and the bytes are the canonical (shortest) spelling of these fields in order with nothing in between.", "quantifier": "every set of declarations, every type, every value, in each of the three contexts (body, field, element)", "why_tests_cant": "tests compare a few literal byte strings; the rules compose over unboundedly many types and values", "anchors": ["src/lib.rs:the fourleaf format", "src/ser.rs:Serialize", "src/sugar.rs:fourleaf_retrofit", "src/unknown.rs:UnknownFields"]}
{"id": "C81", "title": "Forwarding a message", "statement": "A client that does not know a message's type can forward it: read elements with next_element and pass each to write_element of another stream until the end of the outermost struct (or of the document). What it writes is a message with the same fields, never longer than the original, and the source then stands exactly behind the message. Every reader of any type under any configuration reads the same value from the copy as from the original, or rejects both. Whatever the underlying reader and writer do meanwhile, what was written so far is the beginning of that copy, and an error has one of the three external causes (source, sink, position overflow).", "quantifier": "every message, every spelling (padding, overlong integers), every tail, every source and sink and every behaviour of them, every type and configuration of a later reader", "why_tests_cant": "the space of messages, spellings, I/O schedules and later readers is unbounded", "anchors": ["src/stream.rs:Stream::next_element", "src/stream.rs:Stream::write_element", "src/stream.rs:Stream::struct_depth", "src/de.rs:Deserialize"]}
{"id": "C82", "title": "Graceful EOF matters only at the end of the input", "statement": "set_graceful_eof changes nothing as long as the input does not end where an element would start: any client that does not call clear_eof, over any reader, has the same outcome (value or error) with the setting on and off and leaves the stream in the same state, unless with the setting on it has brought the stream to the end of the document; in that case, with the setting off, a client that stops at unexpected ends of the input fails with this error. In particular deserialisation of anything has the same outcome with and without graceful EOF, or fails with UnexpectedEof without it. On a stream that does not seek, the end of the input is treated exactly as an explicit end-of-document element: a value is deserialised from bytes with graceful EOF if and only if it is deserialised without it from the same bytes followed by an EndOfDoc element.", "quantifier": "every client program without clear_eof, every input, reader behaviour (also failing), stream state, type and configuration", "why_tests_cant": "the difference between two configurations over all programs and inputs", "anchors": ["src/stream.rs:Stream::set_graceful_eof", "src/stream.rs:StreamTracker", "src/stream.rs:Stream::next_element_impl", "src/de.rs:Deserialize"]}
{"id": "C83", "title": "Field delegation", "statement": "A struct that delegates to a field with (*) is as a whole message written exactly like the value of that field, and a message is accepted exactly if it is accepted as the field's type with a recursion limit lower by one and the constructor accepts the value (which is then wrapped). Delegation is not perfectly transparent: the inner value is always a single element, so a field of a delegating type is written like a field of type [T; 1] (collections get wrapped in a struct), what is read as [T; 1] is read as the delegating type given one more level of recursion, and what is read as the delegating type is read as [T; 1]; in collections it is written and read like T. A delegating enum variant is written as its discriminant with the fields of the inner value's message, and accepted exactly if a message of these fields is accepted as the inner type with a recursion limit lower by two.", "quantifier": "every set of declarations, every delegating struct or variant (declared or catch-all), every inner type and value, every message and configuration", "why_tests_cant": "all inner types (which have three different forms: body, field, element) and all messages, well-formed for the type or not", "anchors": ["src/sugar.rs:fourleaf_retrofit", "src/sugar.rs:@_STRUCT_ELEMENT_SER", "src/sugar.rs:@_STRUCT_ELEMENT_DESER"]}
{"id": "C84", "title": "Integer widths and 32-bit machines", "statement": "Two types that differ only in the widths of integers of the same signedness, anywhere inside (declared structs, enum variants, collections, map keys, ...), write the same bytes for the values they share; whatever message the narrower type accepts, the wider one accepts as the same value at the same cost; what was written as the wider type is accepted as the narrower one if the value exists there, and is refused otherwise: no message is ever read as different numbers. In particular usize and isize can be exchanged between 32-bit and 64-bit machines.", "quantifier": "every pair of types and declarations that differ in integer widths, every value, every message in any spelling, every config", "why_tests_cant": "must hold for every nesting of types and every message; CI runs on one machine width only", "anchors": ["src/stream.rs:write_int", "src/stream.rs:to_int", "src/ser.rs:ser_direct", "src/de.rs:des_direct"]}
