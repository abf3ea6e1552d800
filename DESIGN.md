# Formal model of udoprog/musli in Lean 4

## Trusted base

* Lean 4.33.0's kernel. No own axioms, no compiled-code tactics. Every property
  theorem depends on at most `propext`, `Classical.choice`, `Quot.sound`;
  `lean/Verif/Audit.lean` prints the axioms of each of them during the build.
  Mathlib (rationals, ordered fields, `zpow`, and the arithmetic tactics) is imported
  only by the floating point part: `Spec/Float`, `Spec/FloatText` and `Proofs/Float/*`
  (hence also by `Props/Float`).
* The transcription from Rust to Lean. Each model definition cites the file and
  lines it models, and says where it simplifies.
* Rust's standard library as specified: `u*/i*` wrapping operations are `BitVec`
  operations, `char` is Lean's `Char` (both: scalar values), `slice` and `Vec` are
  lists, `str::from_utf8` is the well-formedness predicate `Utf8.valid`,
  `itoa` writes canonical decimal.
* Host: 64-bit pointers (`usize` is 64 bits); the byte order of the host is a
  parameter of the theorems (`[Host]`).
* How the transcription was checked: `Props/Conformance.lean` and
  `Props/ConformanceFloat.lean`, `Props/ConformanceInt.lean` evaluate the model on the inputs of the repository's own
  tests (`crates/musli/tests`, `alloc/slice/tests.rs`, `tests/dec2flt`) and compare with
  the outcome the test asserts; all agree. They are tests, not theorems, and no property
  rests on them.
* Specifications, `lean/Verif/Spec/`: what has to be read to know what a theorem
  claims. They do not mention the model (except for its types of values).

## Layout

| Directory | Contents |
|---|---|
| `Verif/Basic.lean` | bytes, errors, decoder monad |
| `Verif/Model/` | the model of the code, function by function |
| `Verif/Spec/` | small specifications, independent of the model |
| `Verif/Proofs/` | lemmas |
| `Verif/Props/` | one file per group of properties; theorem names `Cnn_*`, with examples which show that hypotheses are met |
| `tools/` | `manifest.py` regenerates `MANIFEST.json`, `Verif.lean` and `Audit.lean` from the names of the theorems; `mutate.py` runs seeded bugs |
| `seeded/LOG.jsonl` | the seeded bugs and which theorems failed |

## What is modelled

| Model | Code |
|---|---|
| `Int.lean`, `Options.lean` | `musli/src/int/*` (continuation encoding, zig-zag, fixed width), `musli/src/options.rs` |
| `Utf8.lean` | UTF-8 encoding, decoding and validation as Rust's `core::str` specifies |
| `Ty.lean` | a universe `Ty` of Rust types with their Lean types of values `Ty.Val`: primitives, unit, bytes, strings, byte arrays, options, arrays, vectors, sets, tuples, boxes, maps, derived structs, derived enums, packed structs |
| `Codec.lean`, `Fmt.lean`, `Partial.lean` | the `Encode`/`Decode` implementations (`musli-core/src/impls`, and what `musli-macros` generates) over an abstract format `Fmt`; partially consumed sequences |
| `Storage.lean`, `Wire.lean`, `Descriptive.lean` | encoder, decoder and skip of the three binary formats as instances of `Fmt`, including the bitwise fast path of storage and packed |
| `Reader.lean`, `Writer.lean` | `&[u8]`, `SliceReader`, `Limit`, `Vec`, `FixedBytes`, `SliceMutWriter`, with the marks of the context |
| `Json/Parser.lean`, `Json/Number.lean`, `Json/Codec.lean` | JSON: strings, numbers (integers, also with fraction and exponent), literals, skipping, arrays, objects, the encoder and the decoder over `Ty` |
| `Alloc/Slice.lean` | the slice allocator: memory, headers, free list, `alloc`/`realloc`/`free` |
| `Zero/Search.lean` | `musli-zerocopy` binary search |
| `Zero/Swiss.lean` | swiss tables: all group implementations on the level of bits, probing, construction, lookup |
| `Zero/Phf.lean` | perfect hash maps: the search for displacements, the permutation of the entries, lookup |
| `Zero/PhfFixed.lean` | the same with two corrections, to show that nothing else is wrong (C48) |
| `TaggedFixed.lean` | untagged enums with a correction, for the same reason (C75) |
| `Json/FloatFixed.lean` | not the code: `parse_f32` and `parse_f64` with whitespace skipped first (C86_corrected) |
| `AccessFixed.lean` | not the code: guards of contexts with a check for overflow in `Shared::clone` (C80_corrected) |
| `Zero/SwapAtFixed.lean` | not the code: `Buf::swap` with both references checked, without overflow (C79_corrected) |
| `Zero/SwapAttrFixed.lean` | not the code: pairs of variants with a check that they name each other (C131_corrected) |
| `Zero/SwissFixed.lean` | not the code: swiss tables with the right length, and which validate buckets in use only (C46_corrected, C47_corrected) |
| `Zero/RefCmpFixed.lean` | not the code: references which are read before they are compared (C128_corrected) |
| `Json/ArrayFixed.lean` | not the code: `decode_array` with an error for an element too many (C31_corrected) |
| `Value/ValueFixed.lean` | not the code: `encode_empty` of the `Value` encoder writes a unit (C63_corrected) |
| `Zero/TrieFixed.lean` | tries with two corrections, for the same reason (C60, C61, C62) |
| `Zero/Layout.lean` | `ZeroCopy`: `ANY_BITS`, `PADDED`, validation and padding of primitives, arrays, derived structs and enums, `Buf::load*`, `store_unaligned` |
| `Zero/Owned.lean` | `OwnedBuf` and `SliceMut`: storing, growth, alignment, clone, drop, with the allocator's state |
| `Zero/Ref.lean` | `Ref`: constructors, byte orders, slices, iterators, coercions, for any platform, byte order and size type |
| `Zero/Endian.lean` | `ZeroCopy::swap_bytes`, `CAN_SWAP_BYTES`, `Endian`, `from_endian` and what the derive macro generates for them |
| `Zero/Discriminant.lean` | `Enumerator` of the derive macro for `ZeroCopy` |
| `Zero/Trie.lean` | `Builder::insert`, `TrieRef::get`, `Walk`: iteration over all or from a prefix, growing and fixed stacks |
| `Model/Tagged.lean`, `Model/Json/Tagged.lean` | `musli-macros/src/en.rs`, `de.rs`: adjacently and internally tagged, untagged enums and the fallback variant; `musli-core/src/en/map_encoder.rs` (`AsEncoder`) |
| `Zero/Sip.lean` | `musli-zerocopy/src/sip.rs` |
| `Zero/Portable.lean` | keys of the hash functions in `swiss/map.rs`, `swiss/set.rs`, `phf/hashing.rs` on several machines |
| `Zero/SwapAt.lean` | `Buf::swap` in `musli-zerocopy/src/buf/buf.rs` |
| `Model/Access.lean` | `musli/src/context/access.rs` |
| `Model/Trace.lean` | `musli/src/context/trace.rs`, `capture.rs`: events, paths and errors, without the formatting of reports |
| `Model/Dec2Flt/*.lean` | `musli/src/dec2flt`: all of it, with the tables. Operations of the hardware are the exact results, rounded (`Dec2Flt/Float.lean`) |
| `Model/Json/Float.lean` | `parse_f32`, `parse_f64` of the JSON parsers |
| `Model/SkipCount.lean` | `skip_any` of wire (wire/de.rs:64-107) and descriptive (descriptive/de.rs:63-118) with the counter as a `usize`, in builds with and without overflow checks. `Fmt.skip` has an unbounded counter; C87 relates them |
| `Model/Alloc/System.lean` | `alloc::{Vec, Box}` with `System` (musli-core/src/alloc/{vec,boxed,system}.rs): memory as blocks of slots, elements as tokens; allocation failures and panicking destructors are inputs. Not modelled: lengths beyond 2^64 elements of size zero; `as_slice_mut`, `into_raw_parts`, `set_len`, which hand out what is there. The `Slice` allocator is `Model/Alloc/Slice*` |
| `Model/Rename.lean` | `NameAll` and `expand_name` of the derives: the loop over characters with its counter and group flag. Unicode tables (`is_uppercase`, `to_uppercase`, `to_lowercase`) are a parameter; C92 assumes only their values on ASCII. Spans and the types of names are not modelled |
| `Model/Std.lean` | addresses, ranges, `CString`, `OsString`/`PathBuf` of both platforms. `Display` and `FromStr` of addresses are a parameter, with the laws `NetText.Lawful` |
| `Model/Bitwise.lean` | `IS_BITWISE_*` with `size_of`, `offset_of` and `needs_drop` of structs as the compiler chose them; memory as bytes which may be uninitialised; `decode_slice` of storage with its chunks; `default_decode_slice` and `visit_sequence` of `Value` with capacities. Alignment is not modelled |
| `Model/Serde.lean` | `musli::serde`: what types with serde's derives write to and read from an encoder and a decoder. `deserialize_any` and sequences of unknown length are in `Model/Serde/Any.lean` |
| `Model/MapAccess.lean` | `decode_map`, `decode_remaining_entries` and what a closure can do with them, in storage, wire, descriptive, JSON and values |
| `Model/Collections.lean` | `BTreeMap`, `HashMap`, `BTreeSet`, `HashSet`, `BinaryHeap`, `VecDeque` as values: the loops over their iterators and with `insert`, `encode_slices`. What the standard library does is a contract (`Spec/Collections.lean`) |
| `Model/IoWrite.lean` | `wrap.rs`: `Wrap<W: std::io::Write>`, `to_writer`; `write_all` and `BufWriter` of the standard library after their documentation; a device is the list of its replies |
| `Model/Borrow.lean` | `de/unsized_visitor.rs`, the visitors of `impls/mod.rs:462-618` and `impls/alloc.rs:54-270`, `decode_string`/`decode_bytes` of each format: a visitor is three functions, one for each place the data can live; the decoders say which one they call |
| `Model/Stack.lean` | the recursion of `Decode::decode` (`impls/*.rs`, `musli-macros/src/de.rs`) and of `skip_any` (`json/de/mod.rs:71-91`): the decoders with room for a given number of nested calls; only calls through which decoding is recursive are counted, a call that does not fit is `Err.panic` |
| `Model/Calls.lean` | `crates/musli-core/src/en/{encoder,sequence_encoder,map_encoder,entry_encoder,entries_encoder,variant_encoder,utils}.rs`, `hint/*.rs`, and their implementations in `storage/en.rs`, `wire/en.rs`, `descriptive/en.rs`, `json/en/*.rs`: the calls of a hand-written `Encode` as a tree; unfinished encoders and half-written entries are not modelled |
| `Model/Attr.lean` | `musli-macros/src/internals/{attr,ctxt,expansion}.rs`, `expander.rs:setup_builds`: elements of `#[musli(..)]`, their merging, modes and directions, which implementations are emitted; values of attributes are opaque, errors are counted |
| `Model/NameTy.lean` | `musli-macros/src/internals/build.rs:split_name`, `determine_name_method`, `setup_struct`, `setup_variant`, `internals/name.rs`: which rule names fields, of which type names are, how they are decoded; types are `usize`, `str`, `[u8]` or others |
| `Model/Zero/Packed.lean` | `musli-zerocopy/src/slice/packed.rs`: `Packed<[T], O, L, E>` |
| `Model/Serde/Any.lean` | `serde/ser.rs` call by call; `deserialize_any` of the descriptive format with the `AnyVisitor` of `serde/de.rs:712-886` |
| `Model/Serde/Data.lean` | which serializer calls the types of `Ty` make (serde's own implementations and derive, from its documentation) |
| `Model/Pointer.lean` | `encode_usize`, `encode_isize` and their decoders in all formats with pointers of 32 or 64 bits |
| `Model/Machine.lean` | all formats and the types' encoders and decoders with pointers of 32 or 64 bits, without bitwise copies |
| `Model/PackedField.lean` | `EncodePacked`, `DecodePacked` of arrays, tuples, `Vec`, `VecDeque`, sets; in packs of all formats, values and JSON |
| `Model/Text.lean` | `alloc::String`: push, from_utf8, fmt::Write, collect_string, comparison, Encode and Decode |
| `Model/Value/Cmp.lean` | `PartialEq` and `PartialOrd` of `Value` and `Number` |
| `Model/BytesField.lean` | `EncodeBytes` and `DecodeBytes` of the standard library's types, in all formats and `Value` |
| `Model/Serde/Json.lean` | `musli::serde` over JSON: the serializer's calls (`SData`), typed deserialization, `deserialize_any` |
| `Model/Pattern.lean` | derived decoding with `#[musli(pattern)]` on fields and variants |
| `Model/SkipField.lean` | derived code for structs and transparent structs with `#[musli(skip)]` fields |
| `Model/Json/FloatCodec.lean` | the JSON encoder for types with floats; the printer of floats (`ryu`) is a parameter |
| `Model/Json/Std.lean` | types of the standard library in JSON, as values and as keys |
| `Model/Value/Std.lean` | types of the standard library to and from `Value` |
| `Model/Derive.lean` | which types the derives accept, and which representation they choose |
| `Model/Zero/Mutable.lean` | assigning through `load_mut`, `load_uninit_mut`, `get_mut`; aligned copies |
| `Model/Zero/RefCmp.lean` | comparing and hashing references |
| `Model/Json/Scratch.lean` | strings with a scratch buffer which may run out of memory |
| `Model/Report.lean` | the texts of errors and reports, `context/trace.rs` |
| `Model/Zero/SwapAttr.lean` | which variants are swapped for each other, `musli-zerocopy-macros` |
| `Model/Zero/Lossy.lean` | the debug output of tries, `lossy_str.rs` |
| `Model/Types.lean` | the attribute macros for implementations by hand, `musli-macros/src/types.rs` |
| `Model/Zero/Sneaky.lean` | what of the type is compiled against by `#[derive(ZeroCopy)]`, `musli-zerocopy-macros/src/zero_copy/mod.rs` |
| `Value/Json.lean` | `json/de/mod.rs`, `json/de/key_decoder.rs`: `decode_any` with `AnyVisitor`, `decode_buffer`; `parser.rs:parse_number` (the conversion of text to floats is a parameter) |
| `Value/Value.lean` | `value/{value,en,de}.rs`: `Value`, encoding any type into it, decoding any type from it, conversions of numbers |
| `Value/Any.lean` | `Encode for Value` in the binary formats and in `Value`; `decode_any` with `AnyVisitor` for `Value` and the descriptive format; `decode_buffer` |

Not modelled: how floating point numbers are written as text (`ryu`, another crate; a parameter in C122), the text of error reports, parsing of tokens in the proc macros (only
what attributes mean, and the code they generate), drop order, `alloc::Global`, allocation
failure outside of the slice allocator. Pointers are not modelled as such except
in `SliceReader` and the slice allocator, where they are addresses.

## Properties

"False" means that the code does not have the property as stated in
`properties.jsonl`: there is a theorem with the counterexample
(`*_full_statement_false`, `*_violated_*`), and theorems with the suffix
`_partial` which prove the largest part of the statement found to hold.

| Id | Model and proof |
|---|---|
| C01–C04 | Varints over `BitVec w` for all w ≥ 8; strong induction on the value resp. the input. Specification of the denoted number: `Spec/Base128.lean`. |
| C05 | False (excess bits are dropped); value modulo 2^w proved. |
| C06–C08 | Zig-zag and fixed width at generic width; `Spec/IntTy.lean`. |
| C09 | Options on `BitVec 32`: getters after setters, all pairs, by bit arithmetic. |
| C10, C12, C16 | Round trip: mutual structural induction over `Ty` against the laws of `Fmt` (`Proofs/Lawful`, `RoundTrip`); `Spec/Supported.lean` says which types are meant. |
| C11 | False (tuples of arrays of bool, boxed arrays, byte order); proved for the types of a computable predicate. |
| C13, C17 | Skip: induction over the value; C13 false for `usize` with fixed width; both false for enums with `skip_encoding_if` on fields of variants (`Ty.counted`). `Spec/Skippable.lean`. |
| C14, C34 | Struct evolution: any sequence of entries, `Spec/Entries.lean`, `Spec/Evolution.lean`. |
| C15 | Unknown field in storage is an error, for all structs and positions. |
| C18, C19 | False in descriptive (skip of the remaining sequence, narrowing); parts proved. |
| C20–C22 | Truncation, unambiguity, locality: generic over the formats, `Spec/Front.lean`. |
| C23, C35, C36 | Readers refine "the next n bytes" (`Spec/Reads.lean`); C36 false for `SliceReader`. |
| C24 | Writers refine list append (`Spec/Writes.lean`). |
| C25, C26, C33 | JSON strings against `Spec/Json/Strings.lean`. C33 false after errors. |
| C27, C28, C41 | JSON numbers against `Spec/Json/Numbers.lean` and `Decimals.lean` (exact decimals). C27, C41 false, exact description proved. |
| C29, C30, C37, C38 | JSON round trip, grammar (`Spec/Json/Text.lean`), any representation of the same value (`Spec/Json/Denotes.lean`), skip. |
| C31, C39 | Length of byte arrays (false: panic), arbitrary input. |
| C42 | What is accepted: false for RFC 8259, proved for the grammar `Spec/Json/Loose.lean`. |
| C32 | Slice allocator: executable model; invariant over all histories for the corrected code and for histories of the code which avoid the three defects; counterexamples for each. `Spec/Alloc.lean`. |
| C40 | The accepted documents of the binary formats are those of `Spec/Grammar.lean`: an inductive relation; both directions by induction. |
| C43 | Binary search: loop invariant, for any monotone comparator. |
| C44 | Swiss tables: groups as bit vectors (`Proofs/Zero/Bits`, `Groups`), triangular probing covers the table (`Probe`), invariant of construction (`Table`, `Swiss`), lookup. |
| C45–C47 | False (group width, length, validation of empty buckets); exact descriptions proved. |
| C48, C49 | Perfect hash maps: false (permutation inverted, search without end). Soundness for all sizes by the invariants of the search and of the permutation loop. Which entries are found with up to five; completeness for all sizes of the code with two corrections. |
| C50 | Lookup in arbitrary tables: measure on the stride; two corner cases are false. |
| C51 | Loading: false for several representations (counterexamples). Otherwise, by induction on types, validation decides whether the bytes are those of a value in the layout of the Rust reference (`Spec/ZeroLayout`). |
| C52 | Storing: likewise, the padder writes zeros exactly where the layout has padding. |
| C53 | Histories of buffers: refinement of a specification of the contents (`Spec/ZeroHistory`), with an invariant of the buffer; loading by C51. |
| C54 | Allocator discipline: invariant on the set of live blocks. False for clones of empty buffers. |
| C55 | References: numbers as bytes in an order (`Spec/ZeroRef`). Swapping relates the orders. False for `usize` in the other order. |
| C56 | Elements of slices: the iterator is compared to a double-ended queue, by induction over the calls; loading by C51. False for zero-sized elements. |
| C57 | Coercions: the full tables of the macros, and arithmetic on lengths. False in the other byte order. |
| C58 | `Endian`: types with byte orders, typed values and their memory on a platform (`Spec/ZeroEndian`); mutual induction over types: swapping gives the memory of the other order, is an involution and preserves typing; memory is injective. False for paired variants with fields in different orders. |
| C59 | Discriminants: the rule of the Rust reference for values of constant expressions (`Spec/Discriminant`), induction over the variants with the value of the previous expression as invariant. |
| C60, C61, C62 | Tries: histories of stores and insertions (`Spec/Trie`); the invariant is that below a key nodes' strings directly follow it in the buffer; iteration by induction over trees for any rest of the stack; lookups under the invariant that brothers' first bytes are distinct, which holds if insertions are in order. |
| C63 | Structural induction over types: the encoder equals an ideal representation if no units are dropped, and the decoder inverts that. |
| C64 | The model's conversions against the ranges of `Spec/IntTy`, digits against `Spec/Json/Numbers`. |
| C65, C67 | Mutual induction over values and lists; for C67 with fuel bounded by the length of the input. |
| C66 | C67 composed with C63's representation and C68; decoding does not depend on the width of numbers. |
| C68 | Structural induction over types, relating both encoders including their failures. |
| C69 | Mutual induction over documents (`Spec/Json/Doc`), with fuel bounded by the length of the text. |
| C70 | C69 composed with: the encoder writes a text of a document which represents the value (induction over types), and the value decoder reads that document back. |
| C71 | C72-like run of the loop over the entries, for the two entries which the encoder writes; names written by `encoder.encode` are read back. |
| C72 | Induction over the entries before the content; skipping from C13/C17; in JSON with the texts of `Spec/Json`. |
| C73 | The bytes are those of a map value, which the buffer reads back (C66, C70); the struct ignores the tag as an unknown field. |
| C74 | The same for any list of entries related to the members of the buffered map. |
| C75 | Induction over the variants; a decoder that does not advance yields copies. |
| C76 | Case distinction on the name, C13/C17 for the skipped body. |
| C77 | The hasher after some bytes is described by the complete words and the rest of them; induction over the calls. The specification is checked with the published vectors of SipHash-2-4. |
| C78 | From C77, calls of bytes are the same on all machines; then C44. |
| C79 | The bytes of the result are given one by one. |
| C80 | Invariant: the counter is the number of shared guards, negated, or one. |
| C81 | Induction over histories; for balanced ones, the path stays above the one at the start. |
| C82 | Induction over the events. |
| C83 | Rational numbers from Mathlib; rounding in `Spec/Float.lean`, literals in `Spec/FloatText.lean`. The table of powers of five is checked entry by entry in the kernel (`Proofs/Float/Table`). The product of Eisel and Lemire brackets the number (`Lemire`, `Compute`, `ComputeFloat`), the fast path is exact (`Fast`), the slow path keeps track of an interval or an exact decimal while it shifts (`LeftShift`, `RightShift`, `Track`, `SlowLoops`, `SlowRound`, `SlowPath`), parsing in `EightDigits`, `Text`, `Number`, `ReadDecimal`; `Top` puts them together. |
| C84 | `Reject`: case distinction along the grammar; the words by bytes. |
| C85 | From C83 and C84: every text is accepted or rejected. |
| C86 | From C83; no accepted text begins with whitespace. |
| C87 | The counter is bounded by the bytes that are left plus what lengths claim. Complete values never overflow it, since every claimed value has at least one byte. The converse by induction on the loop when additions are checked. |
| C88 | `Spec/SysVec.lean` keeps the account of the program; `Good` relates it to memory (each vector owns one block with its layout and the elements in its first slots), every call preserves it (`Proofs/SysHeap`, `SysVec`, `SysStep`). |
| C89 | Counts of each token, part of the same invariant. |
| C90 | From the invariant: blocks in memory are those of vectors in use. For the code as it is there is an account with at least as many elements (`Fits`, Proofs/SysMemory) with which the invariant holds, whatever destructors do. |
| C91 | `Spec/Rename.lean` (`words`, `inCase`); the loop emits words (`go_spec`), by induction over the identifier. |
| C92 | The words can be read back from a name: separators do not occur in words, capitals only begin words (`Proofs/Rename`). |
| C93 | By cases over the type, from the laws of formats (`Fmt.Lawful`) and `rtD` for the bounds of ranges (`Proofs/Std`). |
| C94 | `Spec/Bitwise.lean` (`MTy.valid`: the validity rules of the Rust reference); mutual induction over types and fields. |
| C95 | Invariant of the loops: capacity in bytes ≤ 2·(bytes of elements + chunk) (`Proofs/Bitwise`). |
| C96 | `Spec/Serde.lean` (`ok`: a type of serde's data model); mutual induction over types, fields, variants (`Proofs/Serde.rt`). |
| C97 | `Serde.compat`; equality of encoders and refinement of decoders by mutual induction (`ser_eq`, `de_ref`). |
| C98 | `Serde.encDoc`; invariant of the loop over entries (`Proofs/SerdeDoc`). |
| C99 | `Spec/MapAccess.lean` (`MapOp.sees`); induction over the history of calls (`Proofs/MapAccess`). |
| C100 | Contract of maps, sets, heaps; the loops are folds over the list which `Model/Codec` decodes; then `rtD` (`Proofs/Collections`). |
| C101 | Induction on the replies for one `write_all`, composition over the calls (`Proofs/IoWrite.After`); for `BufWriter` the invariant that device and buffer together hold what was written. |
| C102 | `Spec/Fits` says what is written as a length. Mutual induction over types: each method of each format succeeds iff its lengths fit (`Proofs/Fits.okIff`). |
| C103 | Every method of every format is equal for both hosts (`Proofs/Portable.fmt_hosts`); mutual induction over types where the bitwise path is not taken. |
| C104 | `Upgrade s t v w` (Spec/Upgrade.lean), a mutual inductive relation; induction over it: for wire and descriptive decoding the bytes of `v` with the decoder of `t` gives `w` (`Proofs/Upgrade.upgradeD`), for JSON the text written for `v` denotes `w` (`Proofs/Json/Upgrade.upgradeJ`) and C38 applies. |
| C105 | `Call.run`/`Json.run` (Model/Calls.lean) against `Says` (Spec/Calls.lean); mutual induction over `Says` shows equality with `encD`/`encJ`; for untyped calls induction over the tree with the lemmas of C13/C17 (skipping) and C37 (JSON text). |
| C106 | `decS k` (Model/Stack.lean) is `decD` with room for `k` nested calls; mutual induction over the type shows that it is `decD` once `k ≥ Ty.depth`. `Json.skipS` likewise, by induction over the fuel with the number of brackets left; nested brackets by induction over their number. |
| C107 | `visitStr m v`/`visitBytes m v` (Model/Borrow.lean) are the decoders with an arbitrary visitor; shown equal to decoding followed by `visit_borrowed`. JSON: the string parser is modelled again with whether its result is borrowed, shown to agree with `parseString`, and to borrow exactly from literals without escapes. |
| C108 | The loops of the derive over attributes and elements, as folds over an `Attr` and a `Ctxt`; the specification collects values by mode and direction from the source. By induction the slots of each kind of mode are what is given for that kind; with one custom mode a kind is a mode. |
| C109 | `fieldNaming` follows `setup_struct` and `split_name`; the specification is the text of `derives.md`. By cases over attributes, modes and kinds of containers. |
| C110 | `floatAs` is the cast of Rust on bits; the specification is in rational numbers (`Spec/FloatInt.lean`, `Spec/Float.lean`). The sign, exponent and mantissa are split as in `Format.value`; the magnitude is the integer part of the number; clamping by cases. |
| C111 | `Model/Zero/Packed.lean` on top of `Ref` and `Size` (C55, C56); by the lemmas about `swap_bytes` and `as_usize` for each of the two size types. |
| C112 | `Model/Serde/Any.lean`, with serde's data model as specification (`Spec/SerdeData.lean`); simulation of the `decode_any` which C67 is about with another visitor. |
| C113 | `Model/Pointer.lean`, two machines with their own pointer width and byte order; outcome of the base-128 decoder on the number for every width. |
| C114 | `Model/Machine.lean`; simulation between the writers of both machines, and a round trip with the methods of one machine for writing and of another for reading. |
| C115 | `Model/PackedField.lean`; the elements round-trip in the packed mode, packs are delimited or plain. |
| C116 | `Model/Text.lean`; induction over the calls of a `Display` implementation and over histories; UTF-8 keeps the order of characters. |
| C117 | `Model/Value/Cmp.lean`; `Spec/ValueCmp.lean` says when values are equal and less; induction over values. |
| C118 | `Model/BytesField.lean`; all types write what `encode_bytes` writes for the contents; the formats' laws of `Proofs/Lawful.lean`. |
| C119 | `Model/Serde/Json.lean`, with the documents and texts of `Spec/SerdeJson.lean`; induction over data and types, with the lemmas about the JSON decoder. |
| C120 | `Model/Pattern.lean`, with the first accepting name of `Spec/Pattern.lean`; induction over fields and variants and over documents. |
| C121 | `Model/SkipField.lean` against the struct without the skipped fields; variants: the loop over `k` announced entries against the number written, induction over entries and variants. |
| C122 | `RyuLawful` says what is expected of `ryu`; the encoder with floats denotes its value by the induction of C37/C38 with one more case for floats; reading is C83 through `decF32`, `decF64`. Words are rejected inside of documents by C84. |
| C123 | `Spec/Json/Std.lean`: the shape of a type and what its values stand for. Encoding equals that of the shape; decoding succeeds iff the shape decodes and stands for a value, by inversion of the parser's steps; then C30, C38 for the shape. |
| C124 | By cases on the type, with C69 for bounds of ranges, and the round trips of bytes and numbers of C80. |
| C125 | `Spec/Derive.lean`: what is allowed and documented. Each loop of `validate` reports nothing iff its condition holds; the arms of both directions are then mapped over all variants. |
| C126 | `Spec/ZeroMutable.lean`: variables. Splicing changes one range; an invariant relates the values of the variables to their ranges, by induction over the history. |
| C127 | Trailing zeros by induction; the address of every allocation of `OwnedBuf` is aligned. |
| C128 | The stored numbers are injective in the offset and the length; in native order they are equal to them. |
| C129 | Induction over the rounds of the loop; an escape is at least as long as what it denotes. |
| C130 | The loop is related to a recursive specification; then cutting off one step at a time. |
| C131 | The maps of names are related to a relation between names and indices; the rest as C58. |
| C132 | Induction over the parts; a literal ends at the first quote which is not escaped. |
| C133 | What is compiled, missing and inverted adds up to one, by induction over the items. |
| C134 | Pattern and expression together mention every field; lists of fields with distinct names. |
