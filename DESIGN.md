# Formal model of fourleaf in Lean 4

Everything is in `lean/Verif`. There are three kinds of modules:

* **model** modules follow the Rust source function by function; every definition cites the lines it models;
* **specification** modules define what the theorems talk about without using the functions of the model;
* **proof** modules: lemmas, and `Props*` with the property theorems (named after the property: `c13_skip_field` is about C13), each with a
  concrete non-trivial instance of its hypotheses (an `example` or an `ex…` definition) next to it.

## Layout

| module | kind | contents |
|---|---|---|
| `Res` | model | result/state conventions (`ok value state` / `err error state`), error type |
| `Wire` | model | `src/wire.rs` |
| `Io` | model | the underlying `Read`/`Write`/`Seek` object |
| `Stream` | model | `src/stream.rs`: tracker, std loops (`read_exact`, `write_all`, `io::copy`, `read_to_end`), commit, reading, blobs, writing, conversions, copying |
| `BlobOps` | model | operations on a `Blob` handle as data, `slice_mut` |
| `WriteCalls` | model | write calls as data, `runCalls` (stops at the first error) |
| `Session` | model | arbitrary mixtures of all calls on one stream and the blob handle last returned; invariants |
| `Debug` | model | the write calls in a debug build (assertion on tags) |
| `Prog` | model | arbitrary client programs of the reading API and their execution on a `Stream` |
| `Types` | model | Rust types (`Ty`), `fourleaf_retrofit!` declarations (`Decl`, `Env`), values (`V`) |
| `De` | model | `src/de.rs`, `src/unknown.rs`, `src/adapt.rs`, code generated by `src/sugar.rs` (reading) |
| `Ser` | model | `src/ser.rs`, `src/unknown.rs`, code generated by `src/sugar.rs` (writing) |
| `Retrofit` | model, spec | `src/retrofit.rs`: std types, their declarations and documented messages |
| `WireSpec`, `TokSpec`, `WriteSpec` | spec | integer format, elements and their spellings (`EncTok`), canonical spelling (`canonTok`) |
| `Abs` | spec | the reading API over a list of elements instead of bytes |
| `Tree` | spec | messages as trees (`Message l bytes`), deserialisation as a function on trees |
| `HasType` | spec | values of a type, and what reading them back needs (limits) |
| `TupleSpec` | spec | the fields of a tuple: tags from 1, stated separately from the model's `tupleFields`; and which element types are bytes (`Ty.isByte`), separately from `Ty.isU8` |
| `Alike` | spec | when two messages are the same for a reader (order, unknown fields) |
| `Reads` | spec | inference rules: which trees are read as which values (C54), with the cost in terms of the limits |
| `FileSpec` | spec | a file of fixed size: what each operation on it returns and leaves (C66) |
| `Blame` | spec | messages with the positions of their fields, and inference rules for what can be wrong with a message and where (C61) |
| `WireLemmas`, `ZigZagLemmas`, `IoLemmas`, `TokLemmas`, `WriteLemmas` | proof | closed forms of the primitive operations |
| `SafeLemmas`, `ProgLemmas`, `Keeps`, `Pulled` | proof | invariants for arbitrary input, schedules and clients |
| `RelLemmas`, `RelProg`, `Stale`, `Lead`, `Later` | proof | two runs of one client side by side (chunking, longer input, different left-over bookkeeping, a failing reader, another behaviour of the reader later on) |
| `AbsLemmas` | proof | a `Stream` over any spelling of elements refines `Abs` |
| `DeSim`, `DeProg`, `DeTop`, `DeErr`, `PathNames`, `TreeErr`, `TreeMono`, `ByField` | proof | the deserialiser on streams refines the one on trees; paths; stack |
| `SerLemmas`, `SerShape`, `ConvLemmas`, `RoundTrip`, `NeedsUnique` | proof | serialisation |
| `Typed`, `TypedOps`, `Budget`, `Limits` | proof | deserialisation of arbitrary input: typed values, limits, two configurations |
| `ReadsPrim`, `ReadsAccum`, `ReadsField`, `ReadsStruct`, `ReadsSound`, `ReadsComplete` | proof | the tree deserialiser is exactly `Reads` |
| `BlamePos`, `BlameSim`, `BlameOps`, `BlamePrim`, `BlameElem`, `BlameLimit`, `BlameReal` | proof | every error of the deserialiser is one of `Blame`, with its positions; what is blamed is not read |
| `Lossy` | model | `String::from_utf8_lossy` |
| `LossySpec` | spec | `LossyText`: which text arbitrary bytes stand for; `encText` |
| `LossyLemmas` | lemmas | the two agree |
| `DocSpec` | spec | `Document`: what is taken for a document, out of arbitrary elements |
| `Twin`, `TwinDe` | proof | the borrowing and the copying deserialiser side by side on arbitrary bytes |
| `Strict`, `Junk`, `Cut`, `DocLemmas` | proof | the deserialiser on bytes that are not a message: the elements before the first that cannot be decoded; documents cut off by end-of-document elements, and their completed forms |
| `RepoTests` | test | the unit tests and documentation examples of the project (literal inputs and outputs), evaluated on the model: evidence that the model is faithful, not part of any proof |
| `PropsWire`, `PropsDebug`, `PropsRead`, `PropsTok`, `PropsPad`, `PropsWrite`, `PropsCopy`, `PropsConv`, `PropsSer`, `PropsDe`, `PropsTree`, `PropsReads`, `PropsUnknown`, `PropsValues`, `PropsEnum`, `PropsCompat`, `PropsOwn`, `PropsSession`, `PropsSticky`, `PropsCommit`, `PropsStd`, `PropsMixed`, `PropsSeek`, `PropsFail`, `PropsBlob` (with the model of the accessors), `PropsCut`, `PropsCrash`, `PropsBlame`, `PropsUnamb`, `PropsAhead`, `PropsEdit`, `PropsFile`, `PropsCompact`, `PropsExact`, `PropsText`, `PropsLog`, `PropsRefused`, `PropsAround` (with the model of `set_pos` etc.), `PropsWhere` (with the model of `Display for Context`), `PropsOwnAny`, `PropsShift`, `PropsSize`, `PropsCalls`, `PropsWorld` | proof | the properties |

## Modelling decisions

* Bytes are `UInt8`, wire integers `UInt64`, with the bit operations of the source.
  Positions, lengths and depths are `Nat`; every place where the source compares
  with `u64::MAX` does so explicitly in the model; a subtraction that would
  underflow, an out-of-range slice and a violated `unreachable!()` become the explicit error
  value `panic`. Loops without a structural bound take fuel, and running out
  of fuel is the explicit error value `hang`; both are proved unreachable where
  a property says so (C19, C45).
* The underlying byte stream is a byte list with an offset and a *schedule*, a
  list of events (`short k`: at most k+1 bytes are transferred by this call;
  `interrupted`; `fail`; `noSeek`: the next call, if it is a seek, fails; `full`: the next call, if it is a write, transfers nothing and returns `Ok(0)`;
  both are a failure of any other call). Short reads also account for the buffer sizes std chooses.
  Theorems quantify over all schedules. An exhausted schedule transfers everything possible (like `io::Cursor`).
* `Read`-side clients (deserialisers, but also arbitrary user code) are values
  of an inductive type `Prog` whose leaves are API calls; a call's `Result` is
  handed to the continuation, loops are a constructor. Whole-API
  properties (no panic, no hang, chunk independence, position accounting,
  padding transparency, prefix stability) are
  proved once, by induction over `Prog`, so they hold for every client.
* A serialiser is a straight-line sequence of write calls with `?` after each,
  determined by the value alone. It is modelled as the list of these calls
  (`List WCall`), executed by `Stream`'s write functions.
* Types are an inductive description `Ty`; `fourleaf_retrofit!` declarations are looked up by number in an environment, so recursive and
  mutually recursive declarations are covered. The methods of `Deserialize`/`Serialize` are functions on `Ty` which call each other through a record
  of methods (`Ops`/`SOps`); `ops env n` are the methods with `n` stack frames. That a bound depending on type and recursion limit only suffices is
  C37; serialisation is independent of the bound (`sops_mono`).
* Types that delegate everything (`Box`, `Rc`, `Arc`, `Cow`, `Copied`, references on the writing side) are one constructor `boxed`.
  Smart-pointer ownership matters only for C47, where `OwnTy` relates the borrowing and copying variants of a type.
* The values of sets, maps and heaps are lists in iteration/insertion order. Which order a hash or tree collection iterates in is not modelled.
* A constructor expression of `fourleaf_retrofit!` is a predicate on the field values (`Body.check`); constructed values are represented by them.

## Simplifications to know about

* `io::copy` in `write_element`/`write_field` (C26) is std's loop with a buffer of 8192 bytes; the lemma (`copyLoop_spec`) holds for any buffer size.
* C08, C09, C22 range over all write calls except dynamic blobs and `pad_to_align`, which have their own theorems (C24, C25); `c24_mixed` then covers every mixture of all of them (static calls, dynamic blobs left pending, padding): one layout, and it reads back; and `c22_mixed_crash` covers a failure of the sink at any point of such a mixture.
* The catch-all variant of an enum with a discriminant that is also declared is not a value of the model (it would be read back as the declared variant).
* `usize`/`isize` are 64 bits wide. On a 32-bit platform they behave like `u32`/`i32` (the source compares in `u64`/`i64` against `usize::MAX`, and casts only what it has compared): C84 replaces them in a whole program (`Env.on32`) and proves what exchanging messages between such machines does.
* The Rust stack is modelled by counting nested calls of trait methods.
* Messages of errors are dropped, except that of `Error::Exception`. A text is the list of its characters; `from_utf8_lossy` is modelled after std's loop (C69).

## What is not modelled

Memory safety, allocation failure, performance, `Debug`/`Display` text (except that of a `Context`, which errors carry, C64), 
hash iteration order beyond "some order without duplicates", the macro parser
of `fourleaf_retrofit!` (the code it expands to is modelled), `set_pos` and `set_struct_depth` used against the rules of C72 (documented as at the
caller's own risk; examples show the panics), flushing.
Rust's borrow checker is trusted to rule out use of a `Blob` handle after the next call
on its stream; the model's `live` flag records when the handle may be used.

## Trusted base

Lean 4.33.0's kernel; the axioms `propext`, `Classical.choice`, `Quot.sound`
(at most; no other axioms are used; no `native_decide`/`bv_decide`); the reading of the Rust
source recorded in the comment of each definition; std behaviour as stated in `Io` and at the std loops in `Stream`.

## How each property is proved

* C01–C07 (wire): induction on the byte list against a `Nat`-valued specification; finite tables (all 256 bytes) by kernel `decide`.
* C08, C09, C22, C23: execution of write calls appends the canonical bytes, or under a failure a prefix (`WOut`); induction over calls and schedule.
  Reading back through the refinement `Stream` → `Abs`.
* C10, C12, C13, C17, C18, C27, C28: refinement of the abstract element stream, for any spelling, chunking, and any sequence of blob operations in between.
* C11, C14, C15, C19, C20: invariants, for every client program. C21, C34 (prefix stability): a relation between two runs. C16: a relation between two abstract streams that differ in padding.
* C24–C26: closed forms of the operations on arbitrary states.
* C29: case analysis with `UInt64`/`Int64` arithmetic.
* C30–C34, C48, C49, C52: serialisation yields a tree (`RoundTrip`), the tree deserialiser gives the value back; bytes ↔ tree by `DeTop`.
* C35–C37, C45, C46, C50, C53: invariants of the deserialiser program on arbitrary streams (`Typed`, `Budget`, `Limits`, `DeErr`).
* C38, C39: `Alike` messages have the same outcome. C54: soundness and completeness of the rules `Reads`; C40–C44, C46–C48 are consequences.
* C41 (`PropsCompat`, `PropsFlat`, `PropsBackward`): `Compat t v t' v'` relates a value of the old type with what the new type should read; proved by induction over `Compat` with inversion of `Reads` (for sets and maps: inserting commutes with a change that keeps different keys different). `c41_signedness` is the converse for a change of sign: both types accept the message and the numbers differ unless zero. `c41_flat`: `FlatTy` relates types where sets and maps have become vectors; what is written has no duplicates (`Tidy`), and such messages are read as the same value (induction over `Tidy`). `PropsBackward` restates the changes a user makes to one field (`Retyped`) one by one, as facts about `Accepts` with exact costs; proof by replacing the reading of that field in `Reads`.
* C84 (`PropsWide`): `WideTy` relates types that differ in integer widths; inductions over `Reads`, over `Needs`, and over the serialising methods (which make other calls, but for the same tokens).
* C47: slices are ranges of the input (stream level); `OwnTy`-related types accept the same messages with the same values (by `Reads`), and the same arbitrary bytes; on arbitrary bytes the outcomes, errors included, are the same (by a simulation of the two programs, `Twin`), except that only copied bytes count against the limit, and that the errors may differ if the input is cut off inside a blob.
* C55: an invariant of the stream and the held handle, preserved by every call whatever its outcome; the preconditions are `Excused`.
* C56: for each std type a well-typedness lemma, the calls made, and an inversion of `HasType`; `Duration` by inversion of `Reads`.
* C57: closed form of `seek` under the session invariant; replay by relating the two streams up to schedule (`Rel`) and left-over bookkeeping (`Stale`).
* C58: the stream next to the same stream with a reliable reader (`Lead`): each call has the same outcome or returns the reader's error (or, after a failed seek over a blob cut off by the end of the input, reports the truncation: `PastEnd`); lifted to clients which pass on
  their errors (`Prog.Reports`), which all deserialisers are shown to do.
* C59: closed form of `commit` when the blob is complete (`commit_whole`); a header which fails at its first byte leaves the stream unchanged; then `Rel`.
* C60: from the session invariant of C55 and the confinement of C18.
* C61: a second simulation along the one of C54, over the elements with their positions, shows for each function of the deserialiser which rule of `Blames` an error comes from; the converse is an induction over `Blames`.
* C62: descriptors and groups have the prefix property, then induction; values by C30.
* C63: two relations. `Later`: two runs whose readers differ only in a behaviour which is still to come have the same outcome (for every operation, then every client program). `Fed`: every call in which the reader hands out something moves it, so a client which moved by no more bytes than there were such calls has not reached that behaviour. With C34, for values and errors of the deserialiser.
* C64: every frame of a path has a name pushed by the deserialiser (`PathNames`, by induction over the methods as for C50); a rendered list of frames with brace-free names splits uniquely at the braces.
* C65: `Sees t t' v v'` says what a program with the old type holds when the new one would hold `v'`: (a) writing `v` gives a message the new program reads as `v'` (induction over `Sees`); (b) two readings of one message are related (induction over `Reads`); (c) `Sees` is stable under a change of a field; (d) the old version reads whatever the new one reads. For maps, what is written has no duplicate keys: `Tidy` is `Reads` without duplicates, and a reading at the least possible cost is tidy.
* C66: each operation of a handle in closed form against `File.Does`, then induction over the operations; for a document, induction over its elements: a content of the same length leaves the descriptor unchanged.
* C67: induction over `Reads`, bounding the bytes of the calls that write a value by the canonical size of the values it was read from; then the canonical spelling of elements is no longer than any other.
* C68: arbitrary bytes are elements followed by something that is no element (`tokenise`); the run on them is compared with the abstract run on the elements (`Prog.run_j`: success means the same success there, or that the stream is beyond its end or in a blob that goes beyond it (`Lost`), which the deserialiser never returns from), and this with the run on the elements with every open struct closed (`Prog.abs_c`), which is a message, so that the correspondence with the tree applies. No prefix needs to be guessed: the completed form of the input begins with a message or is longer than the input (`closed_conv`). For a document with exceptions (`c68_exceptions`), the run on its elements and the one on its message correspond until an exception is met where it is not ignored (`Excuse`).
* C69: one round of std's loop either finds a character whose encoding is there (`step_enc`, `step_some`) or drops the longest piece that could begin one (`step_none`, `step_ge`); `LossyText` says this without the loop and is shown to be unambiguous; with the layout theorem of C09 this gives what a reader gets of a text sent.
* C70: C22 (a prefix of the bytes is there), a split of that prefix into complete messages and a proper part, C31 for the former, C33 for the latter, C09 for going on.
* C71: closed form of `skip_by_seek` when the first seek fails; then both runs go on from one state, up to the schedule (`Rel`).
* C72: an invariant of session and handle which does not mention the byte stream (`AInv`); the calls on the stream are those of C55, for the calls on a handle the invariant is proved anew.
* C73: `moved k A s` is the stream with `A` in front of its data and positions larger by `k`; every reading call does the same on both, up to running out of positions (`Shift.lean`), and so does every method of the deserialiser (`ShiftDe.lean`, along `Limits.lean`); two streams with the same bytes ahead are both such versions of one at position 0, up to left-over bookkeeping (`Stale.lean`).
* C74: by induction over `Reads` (the specification of C54), with an allowance of `recursion limit + 66` for each field and one for each byte in a blob (`PropsSize.lean`): a struct has at most 63 declared fields since their tags differ, delegation costs a level of the recursion limit. What was consumed is a document (C68), whose elements pay for the allowance.
* C75: a meter (`Meter.lean`): the events of the schedule that are neither interruptions nor failed seeks, plus the position. No operation lets it fall by more than the calls in vain; after one of those the stream is at its end (graceful EOF), or the content of the blob it stands in is missing, and the next call fails. For the deserialisers by induction over the methods (`MeterDe.lean`). Calls beyond the end of a schedule are not counted; the theorems are for schedules of any length.
* C76 (`PropsReset`): `reset_pos` on any session state is `commit` and then a change of the position; two such streams are `SameAhead`, so C73 applies.
* C77: a world is a family of sessions; the invariant of C55 holds for each, and `io::copy` keeps it on both sides (`PropsWorld.lean`); the effect of a copy by the lemmas on `io::copy` of C26.
* C78: `c53_limits_only_reject` against a configuration which suffices for the value, `c35_bounded` … `c37_bounded` for the other direction (what a value needs is unique, `Needs.unique`); the default configuration is an instance (`PropsDefault.lean`); that a value with `()` in the place of a message is not read back by a configuration which reports unknown fields: induction on the value's type against the documented form (`Layout`) and the specification of reading (`strictly`, `PropsUnits.lean`, also C49).
* C79 (`PropsCommit`): `Implicit m s` (the call `m` on `s` is `commit` followed by `m`) is closed under sequencing and holds for `commit`; `next_element` needs that `commit` keeps the eof flag (`SameEof`, C14), `skip_up` that the fuel does not matter.
* C80 (`Layout`, `PropsLayout`): `Layout` is the documented form as rules (specification). Induction on the nesting of the serialiser's calls: the elements written are exactly those of a tree that the rules allow (`SLay`); induction on the derivation: the rules allow only one tree (`Layout.only`).
* C81 (`PropsForward`): the client `forward` is defined over the public API; induction on the encoded elements shows it makes exactly the steps of `copyElements` (C26) and stops at the end of the outermost struct (`stopsAt_top`); the later readers agree because both messages have the same fields (C54).
* C82 (`Grace`, `PropsGrace`): simulation between a stream and the same stream with graceful EOF off: every reading call has the same outcome on both (`Gr`) or the first is at its end and the second got `UnexpectedEof` (`GrE`); lifted to client programs by induction (`Prog.run_grace`). Also removes the restriction to streams without graceful EOF from C34 and C63.
* C83 (`PropsDelegate`): writing by unfolding the methods with one more level of nesting (`sops`); reading by C54 and `reads_shift`: of the recursion limit and the depth only the difference matters. A field of a delegating type is compared with a field of type `[T; 1]` (`Retyped`), which is the documented "always serialised as a single element"; whole messages, elements of collections and enum variants are compared with the type itself.
* C51: the model of debug builds; parsing never yields a tag outside 1..63.

Where only a part is proved the theorem carries the suffix `_partial` and `MANIFEST.json` says what is missing.

## Tests against wrong programs

`seeded/LOG.jsonl` records realistic bugs put into a scratch copy of the model, with the theorems that stopped being provable. A theorem counts as failed if
its own proof or a proof it depends on fails; `failed_directly` lists the declarations whose own proof fails.

## Findings: where the code disagrees with its documentation or with a property

1. Graceful EOF with a seekable input: a blob cut off by the end of input is silently
   accepted (the seek past the end succeeds, then EOF reads as `EndOfDoc`).
   Non-seekable input gives `TruncatedBlob`.
2. `()` at top level is written as a body containing field 1, but reading it with
   `ignore_unknown_fields = false` fails (C49).
3. `fourleaf_retrofit!` reports `FieldOccursTooFewTimes` for a duplicated field (should be "too many").
4. `ext_slice` is documented to consume the bytes; it does not move the position.
5. `Context::collect(n)` adds 1 instead of `n` (all internal callers pass 1).
6. `skip_up` never returns if the eof flag is set while `struct_depth() > depth`
   (reachable through `set_struct_depth`).
7. Invalid tags are only refused in debug builds (C51).
8. A `u8` field is not readable as `Vec<u8>` although `T` → `Vec<T>` is documented as compatible (C41).
9. Panics reachable through unusual calls: `slice()` on a seekable stream positioned beyond the data,
   `Blob::seek` with `i64::MIN` (debug builds), `pad_to_align(0)`, `write_blob_dynamic` within 10
   bytes of `u64::MAX`.
10. The catch-all example in `sugar.rs`' documentation declares its `UnknownFields` with a tag, which
    would panic on serialisation.
11. `read_fully` of a blob cut off by end of input returns the short data without an error; the
    error appears only at the next call that commits.
12. A required field of type `[u8; 0]` may be absent (the accumulator cannot tell), C40/C46.
13. `Blob`'s `fill_buf` refuses (position overflow) when the *underlying buffer* reaches beyond `u64::MAX`, even if the blob does not.
14. `slice()` panics if `Blob::seek` moved within a blob whose end is missing from the input (C55, `Excused`).
15. If the final seek or the writing of the length fails when a dynamic blob is finished, it stays pending: the next call tries again from
    another position and may fail (`PositionBeforeStart`) or write length 0.
16. `Stream::seek` does not clear the eof flag: after the end of the document has been read, `seek` alone does not make `next_field` return
    anything; `clear_eof` must be called too (C57).
17. `seek` (and `reset_pos`) first commit: if the last blob is cut off by the end of the input, a stream created with `new` cannot be moved away
    from there, every `seek` reports `TruncatedBlob`.
18. An I/O error in the middle of a header loses the bytes read so far: a repeated `next_element` takes the rest of the header for a header (example in `PropsFail`, C59).
19. `skip_up` uses `next_element`, which returns an exception as an ordinary element: an Exception inside a nested struct that the deserialiser ignores (an unknown field) is silently
    swallowed (example in `PropsExact`, C68). An EndOfDoc inside nested structs closes all of them, and the document is accepted.
