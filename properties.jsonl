{"id": "C01", "title": "Variable-length integers round-trip", "statement": "Encoding any unsigned integer of any supported width with variable integer encoding and decoding it at the same width returns exactly that integer and leaves the reader positioned exactly after the bytes that were written, whatever bytes follow.", "quantifier": "every width, every value of that width, every byte suffix", "why_tests_cant": "2^128 values times arbitrary suffixes", "anchors": ["crates/musli/src/int/continuation.rs: encode, decode"]}
{"id": "C02", "title": "Variable-length integers are encoded minimally and within the documented size", "statement": "The variable encoding of a non-zero n-bit-magnitude integer uses exactly ceil(n/7) bytes (one byte for zero); so it never exceeds ceil(width/7) bytes; all bytes but the last have the top bit set and the last has it clear.", "quantifier": "every width and every value", "why_tests_cant": "size bound over all values", "anchors": ["crates/musli/src/int/continuation.rs: encode"]}
{"id": "C03", "title": "Variable-length integers are prefix-free and injective", "statement": "No variable encoding of one integer is a proper prefix of (or equal to) the encoding of a different integer of the same width, so concatenated encodings can be parsed unambiguously.", "quantifier": "every pair of values", "why_tests_cant": "pairs of values", "anchors": ["crates/musli/src/int/continuation.rs: encode, decode"]}
{"id": "C04", "title": "Variable-length integer decoding never reads past the terminating byte and rejects truncated input", "statement": "Whenever decoding succeeds, the bytes consumed are a non-empty run of continuation bytes followed by one terminator, and the remaining input is exactly the rest; decoding any proper prefix of a valid encoding fails.", "quantifier": "every input byte string, every width", "why_tests_cant": "all byte strings", "anchors": ["crates/musli/src/int/continuation.rs: decode"]}
{"id": "C05", "title": "Variable-length integer decoding returns the number that was written on the wire", "statement": "If decoding succeeds then the value equals the little-endian base-128 number denoted by the consumed bytes (no silent loss of high bits). The code at this commit violates this for the last group: excess bits are dropped silently.", "quantifier": "every input byte string, every width", "why_tests_cant": "all byte strings; the violation needs a specially crafted last byte", "anchors": ["crates/musli/src/int/continuation.rs: decode"]}
{"id": "C06", "title": "ZigZag is a bijection that keeps small magnitudes small", "statement": "For every width, mapping a signed integer to unsigned and back is the identity in both directions, and a signed x is mapped to 2x when x >= 0 and to -2x-1 when x < 0.", "quantifier": "every width, every signed and unsigned value", "why_tests_cant": "full integer domains", "anchors": ["crates/musli/src/int/zigzag.rs: encode, decode"]}
{"id": "C07", "title": "Signed integers round-trip under every integer option", "statement": "Encoding any signed or unsigned integer under any option set (variable or fixed, little or big endian) and decoding under the same option set returns the same integer and the untouched suffix; fixed encodings have exactly the type's byte length and big-endian output is the reverse of little-endian output.", "quantifier": "every option word, width, value and suffix", "why_tests_cant": "all option words x all values", "anchors": ["crates/musli/src/int/encoding.rs: encode_unsigned, decode_unsigned, encode_signed, decode_signed", "crates/musli/src/int/traits.rs"]}
{"id": "C08", "title": "Lengths never truncate silently", "statement": "Encoding a usize under any configured length width either produces bytes that decode back to the same usize, or reports an error; it errors exactly when a fixed width is configured and the value does not fit in it.", "quantifier": "every option word, every usize, every suffix", "why_tests_cant": "all lengths", "anchors": ["crates/musli/src/int/encoding.rs: encode_usize, decode_usize", "crates/musli/src/options.rs"]}
{"id": "C09", "title": "Encoding options are independent", "statement": "Setting one option in the options builder is observed by its getter and changes no other option; setters of different options commute; setting twice keeps the last.", "quantifier": "every options word and every sequence of setter calls", "why_tests_cant": "all 2^32 option words and setter histories", "anchors": ["crates/musli/src/options.rs: Builder"]}
{"id": "C10", "title": "Storage format round-trips every value of every supported type", "statement": "For every type built from the supported primitives, strings, bytes, options, arrays, vectors, sets, tuples, boxes, maps, derived structs, derived enums (without skip_encoding_if on fields of variants, for which see C121) and packed structs, and every value of it, decoding the storage encoding at the same type and options returns the same value and leaves exactly the suffix.", "quantifier": "every type expression, every value, every option word, every suffix", "why_tests_cant": "infinite families of types and values", "anchors": ["crates/musli/src/storage/en.rs", "crates/musli/src/storage/de.rs", "crates/musli-core/src/impls/mod.rs", "crates/musli-macros/src/en.rs", "crates/musli-macros/src/de.rs"]}
{"id": "C11", "title": "Bitwise fast path of storage/packed is transparent", "statement": "When the options allow bitwise copies (fixed native integers), values still round-trip, i.e. the fast path used by the encoder is always matched by the decoder. The code at this commit violates this for arrays of types that are bitwise encodable but not bitwise decodable (bool, char, NonZero) inside tuples, sequences or options, for boxed arrays in derived structs, and for non-native byte order.", "quantifier": "every type expression and value under native fixed options", "why_tests_cant": "type-level interaction of two independent flags over all nestings", "anchors": ["crates/musli/src/storage/macros.rs", "crates/musli/src/storage/en.rs: try_fast_encode, encode_slice", "crates/musli/src/storage/de.rs: try_fast_decode, decode_slice", "crates/musli/src/options.rs: is_native_fixed", "crates/musli-core/src/impls/mod.rs: [T; N]"]}
{"id": "C12", "title": "Wire format round-trips every value of every supported type", "statement": "As C10, for the wire format under any option set.", "quantifier": "every type expression, value, option word and suffix", "why_tests_cant": "infinite families", "anchors": ["crates/musli/src/wire/en.rs", "crates/musli/src/wire/de.rs", "crates/musli/src/wire/tag.rs", "crates/musli/src/wire/int.rs"]}
{"id": "C13", "title": "Wire skip consumes exactly one encoded value", "statement": "Skipping a value in the wire format, without knowing its type, consumes exactly the bytes that encoding the value produced. The code at this commit violates this for usize/isize when a fixed length width is configured.", "quantifier": "every type, value, option word with variable-width lengths, suffix", "why_tests_cant": "arbitrary nesting", "anchors": ["crates/musli/src/wire/de.rs: skip_any", "crates/musli/src/wire/int.rs: encode_length"]}
{"id": "C14", "title": "Wire struct evolution: unknown, reordered and missing-with-default fields", "statement": "Decoding a derived struct from a wire map whose entries are any permutation of the struct's fields interleaved with arbitrary unknown fields (any tag not in the struct, any value) yields the struct; missing fields with defaults get their default; a missing field without default is an error; duplicates take the last value.", "quantifier": "every struct type, every entry list, every unknown value", "why_tests_cant": "all interleavings", "anchors": ["crates/musli-macros/src/de.rs: decode_tagged", "crates/musli/src/wire/de.rs: decode_map, try_skip"]}
{"id": "C15", "title": "Storage rejects unknown fields instead of misparsing", "statement": "Decoding a derived struct from a storage map with an unknown field tag fails with an error; it never returns a value.", "quantifier": "every struct type, every entry list containing an unknown tag", "why_tests_cant": "all entry lists", "anchors": ["crates/musli-macros/src/de.rs: decode_tagged", "crates/musli/src/storage/de.rs"]}
{"id": "C16", "title": "Descriptive format round-trips every value of every supported type", "statement": "As C10, for the descriptive format.", "quantifier": "every type expression, value, option word and suffix", "why_tests_cant": "infinite families", "anchors": ["crates/musli/src/descriptive/en.rs", "crates/musli/src/descriptive/de.rs", "crates/musli/src/descriptive/tag.rs", "crates/musli/src/descriptive/integer_encoding.rs"]}
{"id": "C17", "title": "Descriptive skip consumes exactly one encoded value", "statement": "Skipping a value in the descriptive format consumes exactly the bytes that encoding produced, for every type and value.", "quantifier": "every type, value, option word, suffix", "why_tests_cant": "arbitrary nesting", "anchors": ["crates/musli/src/descriptive/de.rs: skip_any"]}
{"id": "C18", "title": "Partially consumed sequences and maps are skipped in full", "statement": "When a user's sequence or map decoder stops early, the rest of it is skipped so that the next value is decoded from the right place (storage, which cannot skip, reports an error). True for wire, and for descriptive maps; the descriptive decoder at this commit skips only one left-over element of a sequence.", "quantifier": "every sequence and map, every number of elements taken, every suffix", "why_tests_cant": "all lengths and cut points", "anchors": ["crates/musli/src/wire/de.rs: decode_sequence", "crates/musli/src/descriptive/de.rs: skip_sequence_remaining", "crates/musli/src/storage/de.rs: decode_sequence, decode_map"]}
{"id": "C19", "title": "Descriptive integers convert between widths without changing value", "statement": "A value written as one integer type and read as another either yields the same mathematical integer or an error. The code at this commit violates this: out-of-range values of the same signedness are truncated silently.", "quantifier": "every source type, target type and value", "why_tests_cant": "all pairs of types and values", "anchors": ["crates/musli/src/descriptive/integer_encoding.rs: decode_typed_unsigned, decode_typed_signed"]}
{"id": "C20", "title": "Binary formats reject every truncated document", "statement": "Decoding any proper prefix of the encoding of a value at the same type fails (for storage, wire and descriptive outside of packed mode).", "quantifier": "every type, value and cut point", "why_tests_cant": "all cut points of all documents", "anchors": ["crates/musli/src/storage/de.rs", "crates/musli/src/wire/de.rs", "crates/musli/src/descriptive/de.rs", "crates/musli/src/reader.rs"]}
{"id": "C21", "title": "Encodings are injective and self-delimiting", "statement": "Two different values of the same type never have the same encoding, and no encoding is a proper prefix of another's, in storage, wire and descriptive formats.", "quantifier": "every type, every pair of values", "why_tests_cant": "pairs of values", "anchors": ["crates/musli/src/storage/en.rs", "crates/musli/src/wire/en.rs", "crates/musli/src/descriptive/en.rs"]}
{"id": "C22", "title": "Decoders only consume from the front of the input", "statement": "Every successful decode of any type from any input, valid or hostile, returns a suffix of that input; it never invents, reorders or re-reads bytes, and the result depends only on the consumed prefix.", "quantifier": "every type, every input byte string", "why_tests_cant": "hostile inputs", "anchors": ["crates/musli/src/reader.rs: Reader for &[u8]", "crates/musli/src/storage/de.rs", "crates/musli/src/wire/de.rs", "crates/musli/src/descriptive/de.rs"]}
{"id": "C23", "title": "A limited reader never yields bytes beyond its limit", "statement": "Through a limit(n) reader no operation sequence returns bytes beyond the first n bytes of the inner reader, and the underlying reader is advanced by exactly the amount consumed.", "quantifier": "every inner content, limit, and sequence of operations", "why_tests_cant": "operation histories", "anchors": ["crates/musli/src/reader.rs: Limit"]}
{"id": "C24", "title": "Fixed-size writers never overflow and never diverge from a growable writer", "statement": "Writing any sequence of byte slices into a fixed-size buffer either succeeds with exactly the bytes a growable writer would hold, or returns an error without having changed the buffer; success happens iff the total fits.", "quantifier": "every capacity and every sequence of writes", "why_tests_cant": "write histories", "anchors": ["crates/musli/src/writer.rs", "crates/musli/src/writer/slice_mut_writer.rs", "crates/musli/src/fixed.rs"]}
{"id": "C25", "title": "JSON strings round-trip and are well-formed", "statement": "Encoding any Unicode string to JSON yields an ASCII-quoted literal with no raw control characters, quotes or backslashes in its body, and parsing it returns the same string and the untouched suffix.", "quantifier": "every string, every suffix", "why_tests_cant": "all strings", "anchors": ["crates/musli/src/json/en/mod.rs: encode_string", "crates/musli/src/json/parser/string.rs: parse_string_slice_reader"]}
{"id": "C26", "title": "JSON string escapes decode to the denoted scalar values", "statement": "Parsing a JSON string literal accepts exactly the RFC 8259 escapes: surrogate pairs combine, lone surrogates and raw control characters are rejected.", "quantifier": "every input string literal", "why_tests_cant": "all literals", "anchors": ["crates/musli/src/json/parser/string.rs"]}
{"id": "C27", "title": "JSON integers parse to the written number or fail", "statement": "Parsing decimal digits as an integer type yields the mathematical value written, and fails when it is out of range. The code at this commit violates this: the last digit's addition is unchecked (e.g. 256 as u8).", "quantifier": "every digit string, every width", "why_tests_cant": "all digit strings", "anchors": ["crates/musli/src/json/parser/integer.rs: digit, parse_unsigned"]}
{"id": "C28", "title": "JSON integers round-trip", "statement": "Formatting any integer in decimal and parsing it at the same type returns the integer and the suffix, when the suffix does not begin with a character that continues a number.", "quantifier": "every width and value", "why_tests_cant": "all values", "anchors": ["crates/musli/src/json/en/mod.rs", "crates/musli/src/json/parser/integer.rs"]}
{"id": "C29", "title": "JSON skip agrees with JSON parse", "statement": "Skipping a JSON value consumes exactly the bytes of the value produced by the encoder, for every value.", "quantifier": "every JSON-encodable type and value", "why_tests_cant": "arbitrary nesting", "anchors": ["crates/musli/src/json/parser/parser.rs: skip", "crates/musli/src/json/parser/string.rs: skip_string"]}
{"id": "C30", "title": "JSON documents round-trip every value", "statement": "Decoding the JSON encoding of a value (booleans, integers, strings, sequences, tuples, options of non-nullable types, structs, enums) at the same type returns the value.", "quantifier": "every type, value, suffix", "why_tests_cant": "infinite families", "anchors": ["crates/musli/src/json/en", "crates/musli/src/json/de"]}
{"id": "C31", "title": "JSON byte-array decoding rejects arrays of wrong length", "statement": "Decoding a JSON array of numbers into a fixed-size byte array succeeds iff it has exactly N elements, otherwise an error is returned. The code at this commit violates this: N+1 elements index out of bounds (panic).", "quantifier": "every N and every array", "why_tests_cant": "all lengths", "anchors": ["crates/musli/src/json/de/mod.rs: decode_array"]}
{"id": "C32", "title": "Slice allocator hands out disjoint memory and preserves contents", "statement": "Through any history of allocating, growing, writing, appending and dropping buffers in the slice allocator, live buffers never overlap each other or the allocator's own records, they stay within the given memory and aligned, and every live buffer holds exactly the contents its own operations gave it.", "quantifier": "every history of safe allocator operations", "why_tests_cant": "unbounded histories", "anchors": ["crates/musli/src/alloc/slice.rs"]}
{"id": "C33", "title": "JSON &str parsing keeps the borrowed remainder valid UTF-8", "statement": "After any parse step over `&mut &str`, successful or not, the remaining slice starts at a character boundary. The code at this commit violates this after errors inside multi-byte characters.", "quantifier": "every string and parse history", "why_tests_cant": "all strings", "anchors": ["crates/musli/src/json/parser/mut_slice_parser.rs"]}
{"id": "C34", "title": "Descriptive struct evolution: unknown, reordered and missing-with-default fields", "statement": "Decoding a derived struct from a descriptive map whose entries are any permutation of the struct's fields interleaved with arbitrary unknown fields yields the struct; missing fields with defaults get their default; a missing field without default is an error; duplicates take the last value.", "quantifier": "all derived structs, all entry lists (any order, repetition, unknown names with values of any type), all options, all suffixes", "why_tests_cant": "The set of schemas, unknown values and entry orders is unbounded.", "anchors": ["crates/musli/src/descriptive/de.rs", "crates/musli-macros/src/de.rs"]}
{"id": "C35", "title": "SliceReader is memory-safe and agrees with the slice reader", "statement": "For every sequence of reads, skips and peeks with any sizes (including ones whose pointer arithmetic overflows), SliceReader returns exactly what reading from the byte slice returns; it never yields bytes outside of its slice.", "quantifier": "all memories, all address ranges, all operation sequences and sizes", "why_tests_cant": "Pointer overflow depends on the address of the slice and on sizes near 2^64; histories are unbounded.", "anchors": ["crates/musli/src/reader.rs: SliceReader, bounds_check_add"]}
{"id": "C36", "title": "The context's position is the number of bytes processed", "statement": "After any sequence of reads or writes, successful or not, the position recorded in the context equals the number of bytes consumed from the reader or written to the writer. The code at this commit violates this for SliceReader (read_byte and read_array count twice) and for SliceMutWriter and BufWriter (not counted).", "quantifier": "all operation sequences and inputs, all readers and writers", "why_tests_cant": "It must hold after every history.", "anchors": ["crates/musli/src/reader.rs", "crates/musli/src/writer.rs", "crates/musli/src/fixed.rs"]}
{"id": "C37", "title": "JSON output is RFC 8259 text and valid UTF-8", "statement": "Whatever value of whatever type is encoded to JSON, if encoding succeeds the output is a JSON value by the grammar of RFC 8259 and is valid UTF-8 (which json::to_string relies on with from_utf8_unchecked).", "quantifier": "all types, all values", "why_tests_cant": "Types nest without bound, strings and numbers are unbounded; undefined behaviour results from a single counterexample.", "anchors": ["crates/musli/src/json/encoding.rs:to_string_with", "crates/musli/src/json/en/mod.rs", "crates/musli/src/json/en/object_encoder.rs"]}
{"id": "C38", "title": "JSON decoding does not depend on formatting", "statement": "Every JSON text that represents a value of a type decodes to that value: insignificant whitespace, the choice of escapes, the order of the members of structs, duplicates (the last one counts) and members for unknown fields make no difference; so a text represents at most one value of a type.", "quantifier": "all types with distinct names, all values, all texts that represent it", "why_tests_cant": "There are infinitely many texts for each value.", "anchors": ["crates/musli/src/json/de/mod.rs", "crates/musli/src/json/de/object_decoder.rs", "crates/musli/src/json/parser/parser.rs", "crates/musli-macros/src/de.rs"]}
{"id": "C39", "title": "JSON decoding and skipping of arbitrary bytes terminates, does not panic and never moves backwards", "statement": "For every input, hostile or not, decoding at any type without fixed-size byte arrays and skipping either succeed, having consumed at least one byte, or return an error; they do not panic (integer additions wrap in release mode), they terminate, and in either case what is left of the parser is a suffix of the input.", "quantifier": "all types without [u8; N], all byte sequences", "why_tests_cant": "The input is arbitrary and unbounded.", "anchors": ["crates/musli/src/json/de/mod.rs", "crates/musli/src/json/parser/*.rs"]}
{"id": "C40", "title": "Binary decoders accept exactly the documents of their grammar", "statement": "For every input, `decode` of the storage, packed, wire or descriptive format succeeds with value v and remainder r if and only if the input is a document for v followed by r, where the documents of a type are given by a grammar (tags, lengths, numbers, entries). In particular malformed booleans, option and variant tags, non-UTF-8 strings, surrogate or out-of-range chars, zero for NonZero, unknown variants, missing fields and wrong array/tuple lengths are errors, and every encoder output is a document.", "quantifier": "all byte strings, all types of the model, all options without the bitwise fast path, all four binary formats", "why_tests_cant": "Rejection of malformed input concerns all byte strings that are not documents; tests can only try some of them.", "anchors": ["crates/musli/src/storage/de.rs:StorageDecoder", "crates/musli/src/wire/de.rs:WireDecoder", "crates/musli/src/descriptive/de.rs:SelfDecoder", "crates/musli-core/src/impls/mod.rs"]}
{"id": "C41", "title": "JSON integers with a fraction or an exponent decode to the denoted integer", "statement": "With the feature parse-full, decoding a JSON number such as 1.5e1, 0.0250e3 or 120e-1 as an integer type returns the integer which the number denotes if it is an integer in range of the type, and is an error otherwise.", "quantifier": "all JSON number texts (any number of digits before and after the decimal point, any exponent), all integer types, all following input", "why_tests_cant": "Unbounded combinations of digits, fraction lengths and exponents; the arithmetic keeps base and mantissa separately and has to agree with exact rational arithmetic for all of them.", "anchors": ["crates/musli/src/json/parser/integer.rs: parse_unsigned_full, parse_signed_full, decode_unsigned_full, decode_exponent, decode_zeros, Parts::compute"]}
{"id": "C42", "title": "JSON decoding accepts only JSON texts that denote the decoded value", "statement": "If json::decode / json::from_slice succeeds with value v and leaves remainder r, the consumed input is whitespace followed by an RFC 8259 text which denotes v: e.g. a char is a string literal of exactly one character, a bool is exactly true or false, an array has its elements separated by single commas, a struct is an object whose members name fields (or are skipped), with every missing field having a default.", "quantifier": "all byte strings, all types of the model, with and without parse-full", "why_tests_cant": "Concerns every malformed input; tests can only try some of them.", "anchors": ["crates/musli/src/json/de/mod.rs:JsonDecoder", "crates/musli/src/json/de/sequence_decoder.rs", "crates/musli/src/json/de/object_decoder.rs", "crates/musli/src/json/de/key_decoder.rs", "crates/musli/src/json/parser/parser.rs:skip_string, skip_number"]}
{"id": "C43", "title": "Binary search in a zero-copy slice", "statement": "On a sorted slice stored in a zero-copy buffer, `binary_search` and `binary_search_by` return Found(i) with element i comparing equal if there is such an element, and otherwise Missing(i) where all elements before i are smaller and all elements from i on are greater. On any slice and with any fallible comparator, only elements of the slice are loaded and an error is one of the comparator or of a load.", "quantifier": "all slices of any length, all element types with a transitive order, all comparators", "why_tests_cant": "Holds for every length and every position of the key; tests try a few.", "anchors": ["crates/musli-zerocopy/src/slice/binary_search.rs:binary_search, binary_search_by"]}
{"id": "C44", "title": "Swiss maps and sets find exactly the stored keys", "statement": "`swiss::store_map`/`store_set` succeed for any entries, and in the result `get(k)` is the value of an entry with key k if there is one and None otherwise, `contains_key`/`contains` agree, and none of them ever fails, whatever the hash function (collisions, adversarial hashes) and on every platform (SSE2, NEON, generic word groups of either byte order).", "quantifier": "all lists of entries of any length, all hash functions, all keys, all group implementations", "why_tests_cant": "The probe sequence, the replicated control bytes, small tables and hash collisions interact; tests use a few tables with the real hash.", "anchors": ["crates/musli-zerocopy/src/swiss/constructor.rs:Constructor", "crates/musli-zerocopy/src/swiss/raw", "crates/musli-zerocopy/src/swiss/map.rs:RawTable::find", "crates/musli-zerocopy/src/swiss/factory.rs:store_raw", "crates/musli-zerocopy/src/swiss/set.rs"]}
{"id": "C45", "title": "Swiss tables are portable between platforms", "statement": "A buffer with a swiss map built on one platform (with an explicit byte order and size) gives the same lookup results on any other platform.", "quantifier": "all pairs of platforms, all maps, all keys", "why_tests_cant": "A test runs on one platform.", "anchors": ["crates/musli-zerocopy/src/swiss/raw/mod.rs", "crates/musli-zerocopy/src/swiss/constructor.rs:set_ctrl", "crates/musli-zerocopy/src/lib.rs (Portability)"]}
{"id": "C46", "title": "The length of a swiss map or set is the number of stored entries", "statement": "`len()` of a map or set built from n entries is n.", "quantifier": "all lists of entries", "why_tests_cant": "Depends on the number of buckets, only small maps are tested.", "anchors": ["crates/musli-zerocopy/src/swiss/constructor.rs:Constructor::len, bucket_mask_to_capacity"]}
{"id": "C47", "title": "A stored swiss map can be bound", "statement": "If all stored entries are valid values of their type, binding the map (`buf.bind`) succeeds.", "quantifier": "all lists of entries, all key and value types", "why_tests_cant": "Ranges over all types, including those for which zeros are not valid.", "anchors": ["crates/musli-zerocopy/src/swiss/factory.rs:store_raw", "crates/musli-zerocopy/src/swiss/map.rs:RawTableRef::bind", "crates/musli-zerocopy/src/traits.rs:validate_unsized"]}
{"id": "C48", "title": "Perfect hash maps and sets find exactly the stored keys", "statement": "For entries with distinct keys, in the map built by `phf::store_map`/`store_set`, `get(k)` is the value of the entry with key k if there is one and None otherwise, and lookups never fail.", "quantifier": "all lists of entries, all keys, all hash functions and random numbers", "why_tests_cant": "Whether a key is found depends on the permutation and the displacements the search ends with, that is on the hashes of all keys; tests use a few maps of two or three entries.", "anchors": ["crates/musli-zerocopy/src/phf/factory.rs:store_raw", "crates/musli-zerocopy/src/phf/generator.rs:generate_hash, try_generate_hash", "crates/musli-zerocopy/src/phf/hashing.rs:displace, get_index, get_custom_index", "crates/musli-zerocopy/src/phf/map.rs:get", "crates/musli-zerocopy/src/phf/set.rs:contains"]}
{"id": "C49", "title": "Building a perfect hash map ends", "statement": "`phf::store_map` and `store_set` return for every iterator of entries.", "quantifier": "all lists of entries", "why_tests_cant": "Non-termination cannot be observed by a test.", "anchors": ["crates/musli-zerocopy/src/phf/generator.rs:generate_hash"]}
{"id": "C50", "title": "Lookup in hash maps from untrusted buffers is safe", "statement": "Whatever bytes the control bytes, entries, mask and displacements of a bound swiss or phf map consist of, lookup ends, does not panic, and returns an error, None, or the value of an entry in the buffer whose key is the one asked for.", "quantifier": "all contents of the fields of a table, all keys, all hash functions, all platforms", "why_tests_cant": "Ranges over all hostile tables.", "anchors": ["crates/musli-zerocopy/src/swiss/map.rs:find_inner", "crates/musli-zerocopy/src/swiss/raw/mod.rs:ProbeSeq::move_next", "crates/musli-zerocopy/src/phf/hashing.rs:get_index, get_custom_index"]}
{"id": "C51", "title": "Loading from untrusted buffers yields values or errors", "statement": "Loading a value, slice or string of a zero-copy type at an offset of a buffer of arbitrary bytes succeeds exactly if the range is inside of the buffer, aligned, and its bytes are a value of the type as laid out by the compiler (`bool`s are 0 or 1, `NonZero`s are not zero, `char`s are scalar values, enums have one of their discriminants, strings are UTF-8); otherwise it is an error, never a panic or a read outside of the value.", "quantifier": "all types made of primitives, arrays, structs and enums with any representation, all buffers, addresses and offsets", "why_tests_cant": "Soundness of reinterpretation ranges over all types and all hostile buffers.", "anchors": ["crates/musli-zerocopy/src/buf/buf_mut.rs", "crates/musli-zerocopy/src/buf/validator.rs:Validator", "crates/musli-zerocopy/src/buf/load.rs", "crates/musli-zerocopy/src/traits.rs:ZeroCopy::validate", "crates/musli-macros/src/zero_copy.rs"]}
{"id": "C52", "title": "Storing initialises every byte", "statement": "Storing a value of a zero-copy type writes its bytes with all padding replaced by zeros, changes nothing which is not padding and reads no uninitialised memory; and what has been stored can be loaded.", "quantifier": "all types made of primitives, arrays, structs and enums with any representation, all values, all contents of the padding", "why_tests_cant": "Uninitialised padding is undefined behaviour, which a test cannot observe, and ranges over all layouts.", "anchors": ["crates/musli-zerocopy/src/buf/padder.rs:Padder", "crates/musli-zerocopy/src/buf/store_buf.rs", "crates/musli-macros/src/zero_copy.rs"]}
{"id": "C53", "title": "What is stored in a buffer can be loaded from it", "statement": "After any sequence of stores of values, slices and strings, `store_uninit`, `extend_from_slice`, `request_align`, `next_offset`, `reserve`, `clone`, `align_in_place`, `truncate` and `clear`, on an `OwnedBuf` or `SliceMut`, and after the buffer has been aligned, every reference which was returned (and not truncated) loads what was stored; references do not overlap; the contents depend only on the calls, not on the allocator or the kind of buffer; and the calls panic only if there is no room.", "quantifier": "all sequences of calls, types, values, allocators, initial capacities and alignments", "why_tests_cant": "Ranges over all histories and all addresses which an allocator may return.", "anchors": ["crates/musli-zerocopy/src/buf/owned_buf.rs:OwnedBuf", "crates/musli-zerocopy/src/buf/slice_mut.rs:SliceMut", "crates/musli-zerocopy/src/buf/buf.rs:load"]}
{"id": "C54", "title": "Buffers use the allocator as it has to be used", "statement": "Whatever sequence of calls is made on an `OwnedBuf`, it writes only inside of its allocation, never allocates zero bytes, frees every allocation exactly once with the layout with which it was allocated, and leaks nothing when dropped; a `SliceMut` writes only inside of its slice.", "quantifier": "all sequences of calls, types, values and allocators", "why_tests_cant": "Undefined behaviour need not be observable; ranges over all histories.", "anchors": ["crates/musli-zerocopy/src/buf/owned_buf.rs:ensure_capacity, alloc_init, alloc_realloc, alloc_new, align_in_place, clone, drop", "crates/musli-zerocopy/src/buf/slice_mut.rs:ensure_capacity"]}
{"id": "C55", "title": "References are in their byte order", "statement": "`Ref::new`, `with_metadata` and `try_with_metadata` succeed exactly if the offset and length are in range of the size type, `offset()` and `len()` return them, and the bytes of the reference in memory are these numbers in the byte order of its type, on every platform; whatever bytes a reference has, `offset()` and `len()` are the numbers in that byte order; `to_endian` and the like preserve offset and length. So what one platform stores another one reads.", "quantifier": "all platforms, byte orders, size types, offsets, lengths and bytes of references", "why_tests_cant": "Tests run on one platform, with a few numbers.", "anchors": ["crates/musli-zerocopy/src/pointer/ref.rs:Ref::new, with_metadata, try_with_metadata, offset, len, is_empty, to_endian", "crates/musli-zerocopy/src/pointer/size.rs:Size", "crates/musli-zerocopy/src/endian/mod.rs:ByteOrder"]}
{"id": "C56", "title": "References to slices and to their elements agree", "statement": "`get`, `get_unchecked`, `split_at` and `iter` of a reference to a slice refer to its elements: for any interleaving of `next` and `next_back` every element is returned once and in order; the halves of a split have the elements before and after; a slice can be loaded exactly if all of its elements can, with the same bytes.", "quantifier": "all references, element types, indices, sequences of calls, buffers and addresses", "why_tests_cant": "Ranges over all references (also untrusted ones), sequences of iterator calls and contents.", "anchors": ["crates/musli-zerocopy/src/pointer/ref.rs:Ref::get, get_unchecked, split_at, iter, Iter", "crates/musli-zerocopy/src/buf/buf.rs:load_unsized, load_sized"]}
{"id": "C57", "title": "Coercions refer to the same bytes", "statement": "For all types with a coercion, `coerce`, `try_coerce` and `array_into_slice` return a reference with the same offset which refers to the same bytes and needs no stricter alignment; `try_coerce` is `None` exactly if the length is not in range.", "quantifier": "all implementations of Coerce, references, platforms, byte orders and size types", "why_tests_cant": "The examples in the documentation are for one length, size type and byte order.", "anchors": ["crates/musli-zerocopy/src/pointer/ref.rs:Ref::coerce, try_coerce, array_into_slice", "crates/musli-zerocopy/src/pointer/coerce.rs:Coerce", "crates/musli-zerocopy/src/pointer/coerce_slice.rs:CoerceSlice"]}
{"id": "C58", "title": "Endian stores values in its byte order", "statement": "For every type which can be swapped (numbers, bools, nonzero numbers, arrays, derived structs, derived enums with `#[zero_copy(swap_bytes)]`, nested `Endian`s), `Endian::<T, E>::new(v)` on a platform of either byte order is in memory `v` as a platform of byte order `E` has it, it is a valid value, and `to_ne` returns `v`; a type in which everything larger than a byte is in an `Endian` has the same bytes on every platform, which validate there and read as the same value.", "quantifier": "all types (any nesting), values, platforms and byte orders", "why_tests_cant": "Tests run on a platform of one byte order, with a few types and values.", "anchors": ["crates/musli-zerocopy/src/endian/endian.rs:Endian::new, to_ne, to_order", "crates/musli-zerocopy/src/endian/mod.rs:ByteOrder, from_endian", "crates/musli-zerocopy/src/traits.rs:ZeroCopy::swap_bytes, CAN_SWAP_BYTES", "crates/musli-zerocopy-macros/src/zero_copy/mod.rs:expand (swap_bytes)"]}
{"id": "C59", "title": "Derived enums have the compiler's discriminants", "statement": "For every enum which the compiler accepts, with any mixture of given and implied discriminants, signs, literals and other expressions, `#[derive(ZeroCopy)]` succeeds and the constants it validates and pads by are the discriminants of the compiler.", "quantifier": "all enums: lists of optional discriminant expressions, and representations", "why_tests_cant": "Ranges over all lists of expressions; the boundaries (sign change, -128, -0, implied after an expression) are many.", "anchors": ["crates/musli-zerocopy-macros/src/zero_copy/num.rs:Enumerator::next, next_index, as_int", "crates/musli-zerocopy-macros/src/zero_copy/mod.rs:expand (discriminants)"]}
{"id": "C60", "title": "Tries keep everything which was inserted", "statement": "Whatever strings are inserted into a trie builder, in whatever order, repeated or not, and whatever else is stored in the buffer in between: an insertion fails if and only if the string is not in the buffer; iterating over the trie yields all keys with their values, each as often as it was inserted, and nothing else, also with a stack of a fixed size which is larger than the longest key; and lookups of any string and iterations from any prefix end without an error and give only values which were inserted.", "quantifier": "all histories of stores and insertions, all prefixes and stack sizes", "why_tests_cant": "The shape of a trie depends on the whole history; nodes are split and strings are reconstructed from what happens to precede them in the buffer.", "anchors": ["crates/musli-zerocopy/src/trie/factory.rs:Builder::insert", "crates/musli-zerocopy/src/trie/walk.rs:Walk::poll, prefix_string", "crates/musli-zerocopy/src/trie/mod.rs:TrieRef::iter, iter_fixed, values, values_fixed"]}
{"id": "C61", "title": "Trie lookup returns the values of the key", "statement": "`get` returns for every string the values which were inserted with it, in the order in which they were, and None if there are none.", "quantifier": "all histories of stores and insertions, all strings", "why_tests_cant": "Depends on the order of all insertions and on how all keys share prefixes.", "anchors": ["crates/musli-zerocopy/src/trie/mod.rs:TrieRef::get", "crates/musli-zerocopy/src/trie/factory.rs:Builder::insert"]}
{"id": "C62", "title": "Iterating from a prefix yields what has the prefix", "statement": "`iter_in` and `values_in` yield the entries whose keys begin with the string, each as often as it was inserted, and nothing else.", "quantifier": "all histories of stores and insertions, all prefixes, all sufficient stack sizes", "why_tests_cant": "Depends on the order of all insertions and on how all keys and the prefix share prefixes.", "anchors": ["crates/musli-zerocopy/src/trie/walk.rs:Walk::poll", "crates/musli-zerocopy/src/trie/mod.rs:TrieRef::iter_in, iter_in_fixed, values_in, values_in_fixed"]}
{"id": "C63", "title": "A value survives conversion to musli::value::Value and back", "statement": "For every supported type, decoding a `Value` with `value::decode` into which a value was encoded with `value::encode` gives that value.", "quantifier": "all supported types (nested to any depth), all their values, all options", "why_tests_cant": "Types nest arbitrarily; tests try a few.", "anchors": ["crates/musli/src/value/en.rs:ValueEncoder, ValueOutput", "crates/musli/src/value/de.rs:ValueDecoder", "crates/musli/src/value/mod.rs:encode, decode"]}
{"id": "C64", "title": "Numbers of a Value are converted exactly or not at all", "statement": "An integer which was put into a `Value` as any integer type and is read as any other gives the same integer if that is in the range of the other type, and an error otherwise. With `map_keys_as_numbers` the decimal digits of an integer are accepted as an integer key of a map, with the same rule.", "quantifier": "all pairs of integer types, all integers, all digit strings", "why_tests_cant": "2^128 values and 144 pairs of types.", "anchors": ["crates/musli/src/value/de.rs:ensure_number!, FromNumber", "crates/musli/src/value/value.rs:Number"]}
{"id": "C65", "title": "A Value can be encoded and decoded as a Value", "statement": "Decoding a `Value` as a `Value` and encoding a `Value` as a `Value` gives an equal one.", "quantifier": "all values, nested to any depth", "why_tests_cant": "Values nest arbitrarily.", "anchors": ["crates/musli/src/value/value.rs:Encode for Value, AnyVisitor", "crates/musli/src/value/en.rs:ValueOutput", "crates/musli/src/value/de.rs:decode_any"]}
{"id": "C66", "title": "Buffered decoding gives what direct decoding gives (descriptive)", "statement": "A value which was encoded in the descriptive format can be decoded through `decode_buffer` (as internally tagged enums do): the result is that value, and exactly its bytes are consumed.", "quantifier": "all supported types and their values, all options, all following bytes", "why_tests_cant": "Every type is read by two different decoders which must agree.", "anchors": ["crates/musli/src/descriptive/de.rs:decode_buffer, decode_any, BUFFER_OPTIONS", "crates/musli/src/value/de.rs:ValueDecoder"]}
{"id": "C67", "title": "A Value survives the descriptive format", "statement": "A `Value` which was encoded in the descriptive format is decoded as an equal `Value`, and exactly its bytes are consumed.", "quantifier": "all values, all options, all following bytes", "why_tests_cant": "Values nest arbitrarily.", "anchors": ["crates/musli/src/value/value.rs:Encode for Value, AnyVisitor", "crates/musli/src/descriptive/de.rs:decode_any"]}
{"id": "C68", "title": "Encoding through a Value gives the same bytes", "statement": "Encoding a value into a `Value` and that in a format gives the same bytes as encoding the value in that format.", "quantifier": "all types and values, the storage, wire and descriptive formats, all options", "why_tests_cant": "Two encoders must agree for all types.", "anchors": ["crates/musli/src/value/value.rs:Encode for Value, Number", "crates/musli/src/value/en.rs:ValueEncoder"]}
{"id": "C69", "title": "A JSON document is read as the Value it describes", "statement": "Decoding JSON as a `Value` gives the value of the document, independent of whitespace and escapes: objects as maps with string keys in order, arrays as sequences, `null` as unit, integers as the narrowest type that holds them. Exactly the document is consumed, and different documents give different values.", "quantifier": "all documents with integers of up to 128 bits, nested to any depth, all their texts, all following input", "why_tests_cant": "Documents nest arbitrarily and each has infinitely many texts.", "anchors": ["crates/musli/src/json/de/mod.rs:decode_any", "crates/musli/src/json/de/key_decoder.rs:decode_any", "crates/musli/src/json/parser/parser.rs:parse_number", "crates/musli/src/value/value.rs:AnyVisitor"]}
{"id": "C70", "title": "Buffered decoding gives what direct decoding gives (JSON)", "statement": "A value which was encoded as JSON can be decoded through `decode_buffer` (as internally tagged enums do) if it can be decoded at all: the result is that value, and exactly its text is consumed.", "quantifier": "all supported types and their values, all texts of their documents, all following input", "why_tests_cant": "Every type is read by two different decoders which must agree.", "anchors": ["crates/musli/src/json/de/mod.rs:decode_buffer, BUFFER_OPTIONS", "crates/musli/src/value/de.rs:ValueDecoder", "crates/musli/src/value/value.rs:AnyVisitor"]}
{"id": "C71", "title": "Adjacently tagged enums round-trip", "statement": "Decoding what an enum with `#[musli(tag = .., content = ..)]` encodes gives the value and consumes exactly its encoding, in storage, packed, wire, descriptive and JSON; different values have different encodings.", "quantifier": "all enums, tags, contents, values, options, and all following input", "why_tests_cant": "The bodies of variants are values of arbitrary types.", "anchors": ["crates/musli-macros/src/en.rs:encode_adjacent_variant", "crates/musli-macros/src/de.rs:decode_adjacent", "crates/musli-core/src/en/entry_encoder.rs"]}
{"id": "C72", "title": "Documents for adjacently tagged enums", "statement": "In wire, descriptive and JSON, an adjacently tagged enum is decoded from any map in which the tag comes before the content: unknown entries are passed over wherever they are, the last tag before the content counts. A map with the content before any tag, or with an unknown variant, is an error.", "quantifier": "all lists of entries, unknown values of all types, all texts", "why_tests_cant": "There are infinitely many documents.", "anchors": ["crates/musli-macros/src/de.rs:decode_adjacent"]}
{"id": "C73", "title": "Internally tagged enums round-trip", "statement": "Decoding what an enum with `#[musli(tag = ..)]` encodes gives the value and consumes exactly its encoding, in descriptive and JSON.", "quantifier": "all enums, tags, values, options, and all following input", "why_tests_cant": "The bodies of variants have fields of arbitrary types, and are decoded twice, through a buffer.", "anchors": ["crates/musli-macros/src/en.rs:encode_internal_variant", "crates/musli-macros/src/de.rs:decode_internal", "crates/musli-core/src/en/map_encoder.rs:AsEncoder"]}
{"id": "C74", "title": "Documents for internally tagged enums", "statement": "In descriptive and JSON, the tag of an internally tagged enum may be anywhere among its fields, which may come in any order, with unknown fields whose values can be skipped in between; the first tag counts. Without a tag or with an unknown variant decoding fails.", "quantifier": "all lists of entries in any order, all texts", "why_tests_cant": "All orders of all documents.", "anchors": ["crates/musli-macros/src/de.rs:decode_internal"]}
{"id": "C75", "title": "Untagged enums are decoded and consumed", "statement": "An untagged enum is decoded as the first variant that accepts the input, and exactly the input of that variant is consumed, so that what follows can be decoded.", "quantifier": "all enums, values, and all following input", "why_tests_cant": "Which variants accept an input depends on their types, which are arbitrary.", "anchors": ["crates/musli-macros/src/de.rs:decode_untagged_enum"]}
{"id": "C76", "title": "Unknown variants become the fallback", "statement": "With a `#[musli(default)]` variant, known variants are decoded as without it, and every other variant is decoded as the fallback: its body is skipped and what follows is not affected (in storage, which cannot skip, it is an error).", "quantifier": "all enums, all unknown names and bodies of all types, all following input", "why_tests_cant": "Bodies of unknown variants are arbitrary.", "anchors": ["crates/musli-macros/src/de.rs:decode_default_enum, decode_empty_enum"]}
{"id": "C77", "title": "The hash function is SipHash and does not depend on how data is passed to it", "statement": "The hash of a key is SipHash-1-3 with 128 bits of the bytes which its `Hash` implementation writes, in whatever pieces and with whichever of the methods of `Hasher`; nothing outside of the pieces is read.", "quantifier": "all keys of the hash function and all histories of calls, on machines of both byte orders and all widths of usize", "why_tests_cant": "Pieces can have any length and start anywhere in a word; reads are unchecked.", "anchors": ["crates/musli-zerocopy/src/sip.rs"]}
{"id": "C78", "title": "Archives with maps and sets can be read on other machines", "statement": "A map or a set which is stored in an explicit byte order on one machine can be searched on any other machine with the same size of groups: it contains the same keys.", "quantifier": "all keys, values, platforms and byte orders", "why_tests_cant": "The tests run on one machine.", "anchors": ["crates/musli-zerocopy/src/swiss/set.rs:SetRef", "crates/musli-zerocopy/src/swiss/map.rs:MapRef", "crates/musli-zerocopy/src/sip.rs:short_write", "crates/musli-zerocopy/src/phf/hashing.rs:hash"]}
{"id": "C79", "title": "Buf::swap exchanges values within the buffer", "statement": "`Buf::swap` exchanges the bytes of two values and changes nothing else; references outside of the buffer are an error, and memory outside of the buffer is never accessed.", "quantifier": "all buffers, all sizes of values, all offsets including those from untrusted data", "why_tests_cant": "Offsets near the end of the address space, and all overlaps.", "anchors": ["crates/musli-zerocopy/src/buf/buf.rs:swap"]}
{"id": "C80", "title": "Errors are not changed while they are iterated", "statement": "While an iterator over the errors of a context or a report exists, the context cannot be changed: calls which would are refused with a panic. Without iterators they are allowed.", "quantifier": "all histories of iterators, clones, drops and changes", "why_tests_cant": "All histories.", "anchors": ["crates/musli/src/context/access.rs", "crates/musli/src/context/trace.rs:errors, push_path, push_error"]}
{"id": "C81", "title": "The path of an error", "statement": "The path which is reported is that of the fields, variants, indexes and keys which were entered and were not left, or its beginning and the number of steps for which there was no memory; successful calls leave it as it was.", "quantifier": "all histories of events, with any failures of allocations", "why_tests_cant": "Nesting is arbitrary, and allocations can fail at any point.", "anchors": ["crates/musli/src/context/trace.rs"]}
{"id": "C82", "title": "Reports are about the call which failed", "statement": "After a call, a context reports errors if and only if the call failed, with the paths at which they were raised.", "quantifier": "all runs of decoders, after all histories", "why_tests_cant": "All decoders.", "anchors": ["crates/musli/src/context/capture.rs", "crates/musli/src/context/trace.rs", "crates/musli-macros/src/de.rs:decode_untagged_enum"]}
{"id": "C83", "title": "Floats are correctly rounded", "statement": "A decimal literal is read as the `f32` or `f64` which is nearest to the number it stands for, ties to even, including subnormal numbers, zero and infinity, with the sign of the literal; what follows the literal has no influence.", "quantifier": "all literals, with any number of digits and any exponent, and all following input", "why_tests_cant": "Rounding depends on all digits; the interesting literals are those which are extremely near to the middle between two floats, and there are several algorithms with different domains.", "anchors": ["crates/musli/src/dec2flt/mod.rs:dec2flt", "crates/musli/src/dec2flt/parse.rs", "crates/musli/src/dec2flt/number.rs:try_fast_path", "crates/musli/src/dec2flt/lemire.rs:compute_float", "crates/musli/src/dec2flt/slow.rs:parse_long_mantissa", "crates/musli/src/dec2flt/decimal.rs", "crates/musli/src/dec2flt/table.rs"]}
{"id": "C84", "title": "Which texts are floats", "statement": "A float is read exactly from texts which begin with a literal (digits with an optional dot, an optional exponent with at least one digit, an optional sign) that is as long as possible, or which are one of the words `inf`, `infinity`, `nan` in any case with an optional sign.", "quantifier": "all texts", "why_tests_cant": "All texts; blocks of eight digits are recognized by bit arithmetic.", "anchors": ["crates/musli/src/dec2flt/parse.rs:parse_partial_number, parse_inf_nan", "crates/musli/src/dec2flt/common.rs:is_8digits", "crates/musli/src/dec2flt/mod.rs:dec2flt"]}
{"id": "C85", "title": "Reading floats never panics", "statement": "Reading a float from any bytes ends without a panic, an overflow or an access out of bounds, and consumes at least one byte and no more than there are if it succeeds.", "quantifier": "all byte strings", "why_tests_cant": "All inputs; the algorithms index into tables and into a buffer of 768 digits, with arithmetic that is not checked.", "anchors": ["crates/musli/src/dec2flt/mod.rs:dec2flt", "crates/musli/src/dec2flt/decimal.rs", "crates/musli/src/dec2flt/lemire.rs", "crates/musli/src/dec2flt/slow.rs"]}
{"id": "C86", "title": "Floats in JSON", "statement": "A JSON number in the position of a float is decoded as the nearest float and exactly the number is consumed; whitespace in front of it is insignificant.", "quantifier": "all numbers, whitespace and following input", "why_tests_cant": "All texts.", "anchors": ["crates/musli/src/json/parser/slice_parser.rs:parse_f64", "crates/musli/src/json/parser/mut_slice_parser.rs:parse_f64", "crates/musli/src/json/de/mod.rs:decode_f64", "crates/musli/src/json/de/object_pair_decoder.rs:decode_value"]}
{"id": "C87", "title": "Skipping arbitrary bytes", "statement": "Skipping a value of unknown type in the wire and descriptive formats never panics, whatever the input is, and if it succeeds exactly one complete value has been consumed; this is the same in builds with and without overflow checks.", "quantifier": "all byte strings up to the size of memory, all options, both kinds of builds", "why_tests_cant": "All inputs, including lengths up to 2^64 for which there is no data; the number of values left is counted in machine arithmetic.", "anchors": ["crates/musli/src/wire/de.rs:skip_any", "crates/musli/src/descriptive/de.rs:skip_any"]}
{"id": "C88", "title": "Vectors and boxes hold what was put into them", "statement": "With the system allocator, no sequence of calls on `alloc::Vec` and `alloc::Box` has undefined behaviour, and elements read, popped or converted to a `std` vector are those that were put in, in order, also if allocations fail or destructors panic.", "quantifier": "all histories of calls on any number of vectors and boxes, all element types, all patterns of failing allocations and panicking destructors", "why_tests_cant": "All histories; memory errors do not show in tests.", "anchors": ["crates/musli-core/src/alloc/vec.rs:Vec", "crates/musli-core/src/alloc/boxed.rs:Box", "crates/musli-core/src/alloc/system.rs:SystemAlloc"]}
{"id": "C89", "title": "Destructors run exactly once", "statement": "Every value that is moved into a vector or box is either still in it, or has been given back, or its destructor has run, and exactly one of these, exactly once.", "quantifier": "all histories of calls, all element types, all patterns of failing allocations and panicking destructors", "why_tests_cant": "All histories and element types, including those of size zero.", "anchors": ["crates/musli-core/src/alloc/vec.rs:push, pop, clear, drop, into_std", "crates/musli-core/src/alloc/boxed.rs:new_in, drop", "crates/musli-core/src/alloc/system.rs:alloc"]}
{"id": "C90", "title": "Memory is given back", "statement": "Memory of the global allocator belongs to exactly one vector or box in use, and has the size for its elements; when there are none, all memory has been given back, with the layout it was allocated with.", "quantifier": "all histories of calls", "why_tests_cant": "All histories.", "anchors": ["crates/musli-core/src/alloc/system.rs:realloc, reserve, free", "crates/musli-core/src/alloc/vec.rs:extend, into_std, with_capacity_in"]}
{"id": "C91", "title": "Rename rules put the words of an identifier into the named case", "statement": "With `#[musli(name_all = \"..\")]` the name of a field or variant is the words of its identifier (cut at underscores and before upper case letters) written in the case of the rule; `#[musli(name = ..)]` takes precedence, `name` keeps the identifier without `r#`, `index` uses the index, and the defaults are `name` in the text mode and `index` otherwise.", "quantifier": "all identifiers over all characters, all eight rules, all tables of Unicode case mappings", "why_tests_cant": "All identifiers; the tests have six.", "anchors": ["crates/musli-macros/src/internals/name.rs:NameAll::apply", "crates/musli-macros/src/internals/name.rs:NameAll::parse", "crates/musli-macros/src/expander.rs:expand_name", "crates/musli-macros/src/internals/build.rs:split_name"]}
{"id": "C92", "title": "Different fields get different names", "statement": "Under one rename rule different fields of a struct (variants of an enum) get different names, so that what is encoded can be decoded.", "quantifier": "all rules and all sets of identifiers", "why_tests_cant": "All pairs of identifiers.", "anchors": ["crates/musli-macros/src/internals/name.rs:NameAll::apply", "crates/musli-macros/src/expander.rs:expand_name"]}
{"id": "C93", "title": "Types of the standard library round-trip", "statement": "An IP address, socket address, range, C string or path is decoded, in storage, packed, wire and descriptive, in the binary and in the text mode, from what it was encoded as, whatever follows; a path of the other platform is refused.", "quantifier": "all values of these types, all options and formats, all bytes which follow", "why_tests_cant": "All values, options, formats and suffixes; the conversions to and from text are used through their laws.", "anchors": ["crates/musli-core/src/impls/net.rs", "crates/musli-core/src/impls/range.rs", "crates/musli-core/src/impls/alloc.rs:OsString", "crates/musli-core/src/impls/mod.rs:PlatformTag"]}
{"id": "C94", "title": "Copying values as bytes is sound", "statement": "Where storage and packed copy a value to or from its memory: encoding never reads memory which is not initialised (padding), a packed struct that is copied is its fields in order without gaps, and whatever bytes decoding copies into a type they are a value of this type.", "quantifier": "all types with IS_BITWISE_ENCODE or IS_BITWISE_DECODE, all layouts the compiler may choose, all bytes", "why_tests_cant": "All bytes of untrusted input, all layouts of structs; violations are undefined behaviour which a test need not notice.", "anchors": ["crates/musli-macros/src/internals/packed.rs:packed", "crates/musli-core/src/impls/mod.rs:atomic_impl", "crates/musli-core/src/impls/mod.rs:non_zero", "crates/musli-core/src/impls/mod.rs:impl_number", "crates/musli/src/storage/de.rs:try_fast_decode", "crates/musli/src/storage/en.rs:try_fast_encode"]}
{"id": "C95", "title": "A claimed length does not decide how much is allocated", "statement": "While a sequence of claimed length is decoded from any input, the memory allocated for its elements is bounded by a constant multiple of what has been decoded and read so far plus a constant; the result is the claimed number of elements or an error.", "quantifier": "all inputs, all claimed lengths up to 2^64-1, all sizes of elements, all behaviours of the allocator", "why_tests_cant": "All lengths and sizes; the claims that matter cannot be allocated in a test.", "anchors": ["crates/musli/src/storage/de.rs:decode_slice", "crates/musli-core/src/de/utils.rs:default_decode_slice", "crates/musli-core/src/internal/size_hint.rs:cautious", "crates/musli/src/value/value.rs:visit_sequence"]}
{"id": "C96", "title": "serde types round-trip through the bridge", "statement": "A value of a type with serde's derives which musli::serde::encode writes to an encoder of storage, wire, descriptive or packed is read back by musli::serde::decode as the same value, and what follows it is left untouched; so different values have different encodings.", "quantifier": "all types built from serde's data model (structs, enums, tuples, maps, options, \u2026), all values, all options, any bytes that follow", "why_tests_cant": "All types and values of unbounded size.", "anchors": ["crates/musli/src/serde/mod.rs:encode", "crates/musli/src/serde/mod.rs:decode", "crates/musli/src/serde/ser.rs:Serializer", "crates/musli/src/serde/ser.rs:encode_variant", "crates/musli/src/serde/de.rs:Deserializer", "crates/musli/src/serde/de.rs:EnumAccess"]}
{"id": "C97", "title": "serde and M\u00fcsli agree on the bytes of a type", "statement": "A type with both serde's and M\u00fcsli's derives, whose fields and variants are named by strings, has the same encoding through the bridge and directly; what one writes the other reads as the same value; and what the bridge accepts M\u00fcsli accepts with the same value.", "quantifier": "all types, values, formats, options, and arbitrary input bytes for the last part", "why_tests_cant": "All types and all inputs, including malformed ones.", "anchors": ["crates/musli/src/serde/ser.rs:Serializer", "crates/musli/src/serde/de.rs:Deserializer", "crates/musli/src/serde/de.rs:SequenceAccess", "crates/musli/src/serde/de.rs:StructAccess"]}
{"id": "C98", "title": "serde structs evolve", "statement": "In wire and descriptive a serde struct is read from its fields in any order with unknown fields of any type which can be skipped in between. A field that comes twice is an error.", "quantifier": "all structs, values, orders, unknown names, types and values", "why_tests_cant": "All permutations and all types of unknown values.", "anchors": ["crates/musli/src/serde/de.rs:StructAccess", "crates/musli/src/serde/de.rs:deserialize_ignored_any", "crates/musli/src/serde/de.rs:deserialize_struct"]}
{"id": "C99", "title": "Reading a map by hand", "statement": "A closure given to decode_map may ask for single entries and for the remaining entries in any way. It gets each entry of the map once and in order, and when it returns the decoder stands right behind the map.", "quantifier": "all maps, all key and value types, all histories of calls, any bytes that follow", "why_tests_cant": "All histories of calls over maps of unbounded length.", "anchors": ["crates/musli-core/src/de/map_decoder.rs:MapDecoder", "crates/musli-core/src/de/entries_decoder.rs:EntriesDecoder", "crates/musli/src/storage/de.rs:decode_remaining_entries", "crates/musli/src/wire/de.rs:decode_remaining_entries", "crates/musli/src/descriptive/de.rs:decode_remaining_entries", "crates/musli/src/json/de/object_decoder.rs:JsonObjectDecoder", "crates/musli/src/value/de.rs:IterValuePairsDecoder"]}
{"id": "C100", "title": "Collections of the standard library round-trip", "statement": "A BTreeMap, HashMap, BTreeSet, HashSet, BinaryHeap or VecDeque is read back as an equal collection, in whatever order it is iterated and wherever a ring buffer wraps around. From a document in which a key comes several times a map takes the last value, and a set takes an element that is repeated once. A VecDeque has the same bytes as a Vec.", "quantifier": "all key and element types, all contents, all iteration orders (all hashers), all formats and options, any bytes that follow; for JSON any text of the map", "why_tests_cant": "All contents and all iteration orders of hash tables.", "anchors": ["crates/musli-core/src/impls/alloc.rs:BTreeMap", "crates/musli-core/src/impls/alloc.rs:HashMap", "crates/musli-core/src/impls/alloc.rs:BTreeSet", "crates/musli-core/src/impls/alloc.rs:HashSet", "crates/musli-core/src/impls/alloc.rs:BinaryHeap", "crates/musli-core/src/impls/alloc.rs:VecDeque", "crates/musli-core/src/en/utils.rs:default_encode_slices", "crates/musli/src/storage/en.rs:encode_packed_len_slices"]}
{"id": "C101", "title": "Writing to a std::io::Write that writes partially or fails", "statement": "If to_writer succeeds, the writer has received exactly the encoding, once and in order, however it splits and interrupts writes. If it fails, the writer has received a proper prefix of the encoding, the writer itself failed, and nothing was written after the failure. Through a BufWriter passed by value the device receives a prefix in any case and everything if it does not fail; success of to_writer alone does not guarantee it, since nothing is flushed.", "quantifier": "all sequences of replies of the writer (any split, interruption, error at any point), all encodings and divisions into writes, all buffer capacities", "why_tests_cant": "All schedules of partial writes and all crash points.", "anchors": ["crates/musli/src/wrap.rs:Wrap", "crates/musli/src/macros/internal.rs:to_writer", "crates/musli/src/macros/internal.rs:to_writer_with", "crates/musli/src/writer.rs:Writer"]}
{"id": "C102", "title": "Encoding fails only for lengths that do not fit", "statement": "Encoding a value succeeds exactly if every length in it (and outside of descriptive every usize and isize) fits in the configured width; there is no other reason for an error, and the error is an overflow. With the default options of storage, wire and descriptive every value of every accepted type is encoded and read back.", "quantifier": "all types, values, options, formats and byte orders of the machine", "why_tests_cant": "All values: a missed case would be an error or a truncated length for some value only.", "anchors": ["crates/musli/src/int/encoding.rs:encode_usize", "crates/musli/src/wire/en.rs:encode_prefix", "crates/musli/src/wire/int.rs:encode_length", "crates/musli/src/descriptive/en.rs:encode_prefix", "crates/musli/src/storage/en.rs", "crates/musli-core/src/impls/mod.rs"]}
{"id": "C103", "title": "Documents are the same on all machines", "statement": "With options that name a byte order, a value has the same encoding on little and big endian machines, and any bytes, well-formed or not, are decoded to the same result or fail alike.", "quantifier": "all types, values, inputs, options, formats, pairs of byte orders", "why_tests_cant": "Tests run on one machine; all types, values and hostile inputs.", "anchors": ["crates/musli/src/options.rs:is_native_fixed", "crates/musli/src/int/traits.rs:write_bytes", "crates/musli/src/int/traits.rs:read_bytes", "crates/musli/src/storage/en.rs:try_fast_encode", "crates/musli/src/storage/de.rs:try_fast_decode"]}
{"id": "C104", "title": "Programs with other versions of the types read each other's documents", "statement": "In wire (with lengths of variable width, the default), descriptive and JSON: what a program wrote is read by a program whose types have fields and variants added (with a default), removed and reordered, at any depth inside of options, collections, maps, tuples, results, boxes, structs and enums, as the value where every field has the value of the field of its name or else its default and every variant is the variant of its name; nothing after the document is consumed. A variant the reader does not have is an error.", "quantifier": "all pairs of types, all values, options, what follows the document", "why_tests_cant": "All pairs of versions, nesting and values; tests cover single changes at the top of a type.", "anchors": ["crates/musli-macros/src/de.rs", "crates/musli-macros/src/en.rs", "crates/musli/src/wire/de.rs:skip_any", "crates/musli/src/descriptive/de.rs:skip_any", "crates/musli/src/json/de/mod.rs"]}
{"id": "C105", "title": "Implementing Encode by hand", "statement": "An Encode implementation written by hand with the methods of Encoder, SequenceEncoder, MapEncoder, EntryEncoder, EntriesEncoder and VariantEncoder, which describes a value the way the derived implementation does, writes the same bytes in each format, whether elements are pushed one by one or as slices, entries are written as entries or as keys and values, and variants with encode_variant or with encode_sequence_variant/encode_map_variant; so the derived Decode reads it. encode_slice and encode_slices have the effect of calling push for each value. Whatever is called, JSON output is JSON text, and if the announced numbers are right wire and descriptive output is one value to a program which skips it. Announcing a wrong number is detected.", "quantifier": "all trees of calls, all types, values, options, formats", "why_tests_cant": "All trees of calls and their combinations with options and formats.", "anchors": ["crates/musli-core/src/en/encoder.rs", "crates/musli-core/src/en/sequence_encoder.rs", "crates/musli-core/src/en/map_encoder.rs", "crates/musli-core/src/en/entries_encoder.rs", "crates/musli-core/src/en/variant_encoder.rs", "crates/musli-core/src/en/utils.rs", "crates/musli-core/src/hint/sequence_hint.rs", "crates/musli/src/storage/en.rs", "crates/musli/src/wire/en.rs", "crates/musli/src/descriptive/en.rs", "crates/musli/src/json/en/mod.rs"]}
{"id": "C106", "title": "Input cannot exhaust the stack", "statement": "While decoding, calls nest no deeper than the type that is decoded into, whatever the input: no document, however deeply nested, valid or not, makes a program overflow its stack.", "quantifier": "all inputs, types, options, formats, stack sizes", "why_tests_cant": "A test tries some documents on one stack; the claim is about all documents and every size of the stack.", "anchors": ["crates/musli-core/src/impls/mod.rs", "crates/musli-core/src/impls/alloc.rs", "crates/musli-macros/src/de.rs", "crates/musli/src/wire/de.rs:skip_any", "crates/musli/src/descriptive/de.rs:skip_any", "crates/musli/src/json/de/mod.rs:skip_any", "crates/musli/src/json/de/sequence_decoder.rs:skip_sequence_remaining", "crates/musli/src/json/de/object_decoder.rs:skip_object_remaining", "crates/musli/src/value/value.rs:AnyVisitor"]}
{"id": "C107", "title": "Borrowed strings and bytes are the owned ones", "statement": "Decoding a &str, a Cow<str> or a str through decode_unsized succeeds on exactly the inputs from which a String decodes, with the same content and leaving the same input; likewise &[u8] and Cow<[u8]> against a Vec<u8> encoded as bytes. A borrowed result is a contiguous part of the input. What a &str or &[u8] encodes to decodes as the same type.", "quantifier": "all inputs, strings, byte slices, options, formats", "why_tests_cant": "Whether a string can be borrowed depends on each of its bytes and on the escapes of the literal; tests use a few strings.", "anchors": ["crates/musli-core/src/de/unsized_visitor.rs", "crates/musli-core/src/impls/mod.rs", "crates/musli-core/src/impls/alloc.rs:cow", "crates/musli/src/reader.rs:read_bytes", "crates/musli/src/storage/de.rs:decode_string", "crates/musli/src/wire/de.rs:decode_string", "crates/musli/src/descriptive/de.rs:decode_string", "crates/musli/src/json/de/mod.rs:decode_string", "crates/musli/src/json/de/mod.rs:decode_bytes", "crates/musli/src/json/parser/string.rs"]}
{"id": "C108", "title": "Attributes apply to the mode and direction they name", "statement": "#[musli(..)] attributes of a type, variant or field apply to the mode (Binary, Text, mode = <path>) and direction (encode_only, decode_only) they name, and to all if they name none; the more specific value wins: mode and direction, then mode, then direction, then neither. The derive is implemented once for Binary, for Text and for each mode named anywhere in the type, and for all modes if none is named. It reports an error exactly if an element is not an attribute or a value is given twice for the same mode and direction. An attribute for one mode does not change another.", "quantifier": "all lists of items, attributes, elements, modes and directions", "why_tests_cant": "The attributes of an item interact through shared state of the derive, in any number and order; tests show single combinations of them.", "anchors": ["crates/musli-macros/src/internals/attr.rs:layer!", "crates/musli-macros/src/internals/attr.rs:type_attrs", "crates/musli-macros/src/internals/attr.rs:variant_attrs", "crates/musli-macros/src/internals/attr.rs:field_attrs", "crates/musli-macros/src/internals/attr.rs:parse_mode", "crates/musli-macros/src/internals/ctxt.rs:register_mode", "crates/musli-macros/src/internals/expansion.rs", "crates/musli-macros/src/expander.rs:setup_builds", "crates/musli/help/derives.md", "crates/musli/src/lib.rs:Modes"]}
{"id": "C109", "title": "Fields and variants are named as documented", "statement": "Unless a field or variant has a name of its own, which is taken as it is in every mode, it is named by the rule of name_all; otherwise by its identifier if name(type) is str or [u8] and its index for other types; otherwise by its index in tuples, its identifier in Text and its index in Binary and custom modes. Names are of the type of name(type), or else usize for indexes and str for text, and are decoded as such; the names made up by the derive are of this type.", "quantifier": "all modes, kinds of containers, name types, rules, identifiers and fields", "why_tests_cant": "Five attributes, the mode and the kind of container interact; tests use a few of their combinations.", "anchors": ["crates/musli-macros/src/internals/build.rs:split_name", "crates/musli-macros/src/internals/build.rs:determine_name_method", "crates/musli-macros/src/internals/build.rs:setup_struct", "crates/musli-macros/src/internals/build.rs:setup_variant", "crates/musli-macros/src/internals/name.rs:NameAll", "crates/musli-macros/src/internals/attr.rs:is_name_type_ambiguous", "crates/musli-macros/src/internals/attr.rs:default_name_all", "crates/musli-macros/src/expander.rs:expand_name", "crates/musli/help/derives.md"]}
{"id": "C110", "title": "Numbers of a Value keep their value between floats and integers", "statement": "A float in a Value which is read as an integer is that integer; where it is not an integer of the type, an error is reported. A Value is read as a float only if it is a float of that type, and is that float bit by bit.", "quantifier": "all 32 and 64 bit patterns of floats, all integer types, all values", "why_tests_cant": "There are 2^64 floats and twelve integer types; rounding, saturation, subnormals, NaN and the exponents around the width of the integer type all behave differently.", "anchors": ["crates/musli/src/value/de.rs:FromNumber", "crates/musli/src/value/de.rs:integer_from!", "crates/musli/src/value/de.rs:ensure_number!", "crates/musli/src/value/de.rs:decode_f32", "crates/musli/src/value/de.rs:decode_f64"]}
{"id": "C111", "title": "Packed slices refer to what they were made of", "statement": "A packed slice can be made exactly if its offset and length are in range of their types, and then has this offset and length; its bytes are the two numbers in its byte order, without padding and the same on every platform. It loads what a reference with the same offset and length does. get and get_unchecked refer to its elements; split_at of any position up to the length gives the slices before and after it.", "quantifier": "all offsets, lengths, types of these, byte orders, platforms, element sizes, indices, and any bytes in place of a packed slice", "why_tests_cant": "Depends on the byte order of the platform on which tests run, on the ends of the ranges of two types, and on untrusted bytes.", "anchors": ["crates/musli-zerocopy/src/slice/packed.rs:Packed", "crates/musli-zerocopy/src/slice/slice.rs:Slice", "crates/musli-zerocopy/src/pointer/size.rs:Size"]}
{"id": "C112", "title": "deserialize_any shows what was serialized", "statement": "Whatever a serde type serialized through musli::serde in the descriptive format, deserialize_any (which untagged, internally tagged and flattened serde types rely on) shows the visitor the same content: the same tree, strings, bytes and numbers of the same value; and leaves the reader behind it.", "quantifier": "every sequence of calls a Serialize implementation can make, nested to any depth, all options and all suffixes; every type with serde's derives", "why_tests_cant": "All trees of serde's data model, all integers on either side of the 64 bit boundary.", "anchors": ["crates/musli/src/serde/de.rs: deserialize_any, AnyVisitor", "crates/musli/src/serde/ser.rs: Serializer", "crates/musli/src/descriptive/de.rs: decode_any"]}
{"id": "C113", "title": "usize and isize across pointer widths", "statement": "A usize or isize written on a machine with pointers of 32 or 64 bits is read on a machine with pointers of either width, and of either byte order, as the same number if the number exists there, and is reported as an error otherwise; with the same options, in storage, wire and descriptive.", "quantifier": "every number, both widths and byte orders on either side, all options, all suffixes", "why_tests_cant": "Tests run on one machine; the property relates two builds of the crate for all numbers.", "anchors": ["crates/musli/src/int/encoding.rs: encode_usize, decode_usize", "crates/musli/src/wire/int.rs: encode_length, decode_length", "crates/musli/src/descriptive/tag.rs: USIZE, ISIZE", "crates/musli/src/int/continuation.rs", "crates/musli/src/storage/en.rs: encode_isize", "crates/musli/src/wire/en.rs: encode_isize"]}
{"id": "C114", "title": "Documents across pointer widths", "statement": "A document of any type written on a machine with pointers of 32 or 64 bits is read as the same value, consuming nothing else, by every machine on which the value exists, whatever its pointer width and byte order; in storage and wire both machines write the same bytes.", "quantifier": "every type and value, every format, both pointer widths and byte orders on either side, all options which do not copy bits, all suffixes", "why_tests_cant": "Tests run on one machine; the property relates two builds of the crate for all types and values.", "anchors": ["crates/musli/src/int/encoding.rs: encode_usize, decode_usize", "crates/musli/src/wire/en.rs: encode_map_len, encode_prefix", "crates/musli/src/wire/de.rs: decode_len", "crates/musli/src/descriptive/en.rs: encode_prefix", "crates/musli/src/storage/en.rs: encode_packed_len_slice", "crates/musli/src/descriptive/tag.rs: USIZE, ISIZE"]}
{"id": "C115", "title": "Packed fields", "statement": "What a #[musli(packed)] field or Packed<T> of an array or tuple encodes is decoded to the same value, consuming nothing else, in every format. A Vec, VecDeque or set is packed like the array of its elements. A program with a shorter array reads the first elements, and what follows is undisturbed, in the formats which delimit packs. A packed tuple and a packed struct of the same types are interchangeable.", "quantifier": "every element type, value and length, every format and options, all suffixes; in JSON every spacing and every other element", "why_tests_cant": "All element types, lengths and splits of ring buffers.", "anchors": ["crates/musli-core/src/impls/mod.rs: EncodePacked, DecodePacked for [T; N]", "crates/musli-core/src/impls/tuples.rs", "crates/musli-core/src/impls/alloc.rs: EncodePacked for VecDeque", "crates/musli-core/src/internal/macros.rs: EncodePacked for Vec", "crates/musli-core/src/en/sequence_encoder.rs: encode_slice, encode_slices", "crates/musli/src/storage/en.rs: encode_packed_slice, encode_packed_slices", "crates/musli/src/compat.rs: Packed"]}
{"id": "C116", "title": "Strings in allocated memory are UTF-8 and hold what was written", "statement": "A musli_core::alloc::String that was made without unsafe code is valid UTF-8 at any time, whatever the allocator answers and whatever Display implementations write into it. It holds what was written, in order; a push that fails changes nothing. from_utf8 accepts exactly the encodings of texts and otherwise gives the bytes back. collect_string returns the text of the value or an error, and fails only if memory is not granted or the Display implementation fails; Encoder::collect_string writes the document of that text. Decoding a String gives the text, however the decoder shows it. Strings are ordered by their characters.", "quantifier": "every sequence of calls, every answer of the allocator to every request, every Display implementation (including those which ignore errors), every format", "why_tests_cant": "All histories of calls and of allocation failures, and all implementations of Display.", "anchors": ["crates/musli-core/src/alloc/string.rs: String, FromUtf8Error, collect_string", "crates/musli-core/src/alloc/vec.rs: Vec::extend_from_slice", "crates/musli-core/src/en/encoder.rs: Encoder::collect_string"]}
{"id": "C117", "title": "Values are compared lawfully", "statement": "Value == is equality of contents with numbers of one type compared as numbers (0.0 == -0.0, NaN is equal to nothing); it is symmetric, transitive, and reflexive exactly for values without NaN. partial_cmp is the lexicographic order of values of the same kind; it agrees with ==, is antisymmetric and transitive. Numbers of different types are never equal, and ordered by type.", "quantifier": "all values of any depth and size", "why_tests_cant": "All triples of nested values, all floating point bit patterns.", "anchors": ["crates/musli/src/value/value.rs: PartialEq for Value, PartialOrd for Value, Number", "crates/musli-core/src/alloc/vec.rs: PartialEq, PartialOrd", "crates/musli-core/src/alloc/string.rs: PartialEq, Ord"]}
{"id": "C118", "title": "The type of a bytes field does not matter", "statement": "A field which is #[musli(bytes)] can be a Vec<u8>, Box<[u8]>, Rc<[u8]>, Arc<[u8]>, VecDeque<u8>, Cow<[u8]>, &[u8] or [u8; N]. What is written depends only on the bytes in it (not on how a VecDeque is split or whether a Cow borrows), and is read as any other of these types which can hold it, with the same bytes in it; an array of another length is refused. Only in storage, where arrays have no length, arrays are read as arrays. In JSON it makes no difference whether the field is #[musli(bytes)].", "quantifier": "all bytes of any length, all splits of deques, all pairs of types, all formats, options and suffixes", "why_tests_cant": "All pairs of types times all contents and splits.", "anchors": ["crates/musli-core/src/impls/alloc.rs: EncodeBytes, DecodeBytes", "crates/musli-core/src/impls/mod.rs: EncodeBytes, DecodeBytes", "crates/musli/src/storage/en.rs: encode_bytes_vectored", "crates/musli/src/wire/en.rs: encode_bytes_vectored", "crates/musli/src/descriptive/en.rs: encode_bytes_vectored", "crates/musli/src/json/en/mod.rs: encode_bytes_vectored", "crates/musli/src/value/en.rs: encode_bytes_vectored"]}
{"id": "C119", "title": "Serde types in JSON", "statement": "What a serde type serializes into JSON through musli::serde is JSON in UTF-8, and the document the data stands for: None and units are null, structs and maps objects, variants objects with one member. It is written whenever the length of maps is announced and keys are integers or strings. The same type deserializes it to the same value, and so it does with every other JSON text for the value: other whitespace and escapes, fields in another order, unknown fields, and more elements at the end of arrays and tuples. A type with both derives and string names has the same JSON from both.", "quantifier": "all serde data; all types, values and JSON texts for them, all suffixes which do not continue a number", "why_tests_cant": "Unboundedly many values and infinitely many texts for each.", "anchors": ["crates/musli/src/serde/ser.rs: Serializer", "crates/musli/src/serde/de.rs: Deserializer", "crates/musli/src/serde/mod.rs: encode, decode", "crates/musli/src/json/en/mod.rs: JsonEncoder", "crates/musli/src/json/en/object_key_encoder.rs", "crates/musli/src/json/en/variant_encoder.rs", "crates/musli/src/json/de/mod.rs: JsonDecoder", "crates/musli/src/json/de/key_decoder.rs"]}
{"id": "C120", "title": "Patterns decide which field or variant a name stands for", "statement": "With #[musli(pattern = ..)] a field or variant is decoded from exactly the names its pattern accepts; without one, from its own name. If several accept a name, the first in the order of declaration counts. Several entries may stand for the same field; the last one counts. Names which none accepts are skipped in structs, and in enums an error, or the #[musli(default)] variant. Encoding uses the name, so a value of an enum round-trips exactly if its variant is the first which accepts its own name, and a struct if that holds for all its fields.", "quantifier": "all structs, enums, patterns, names, values and documents; all three binary formats and every JSON text", "why_tests_cant": "Patterns and names are unbounded, and so are the orders and repetitions of entries.", "anchors": ["crates/musli-macros/src/de.rs: sized_arm, unsized_arm, NameVariant::as_arm, decode_tagged, decode_default_enum, decode_empty_enum", "crates/musli-macros/src/internals/attr.rs: pattern", "crates/musli/help/derives.md: pattern"]}
{"id": "C121", "title": "Skipped fields", "statement": "A field with #[musli(skip)] is neither written nor read: every format writes what the struct without the field writes, an entry under its name is an unknown entry, and a decoded struct has the initial value of the field whatever the input. So exactly the values whose skipped fields are initial round-trip. A transparent struct is its only field which is not skipped. Fields for which skip_encoding_if holds are left out: structs and enums are read back with the default, and packed structs are written as the packed struct of the other fields.", "quantifier": "all structs and enums, values, inputs, options; all formats", "why_tests_cant": "All combinations of skipped and other fields, all values and all inputs.", "anchors": ["crates/musli-macros/src/en.rs: make_encoders, build_hint, length_test, encode_tagged_variant, encode_adjacent_variant", "crates/musli-macros/src/de.rs: decode_tagged, decode_transparent", "crates/musli-macros/src/internals/build.rs: unskipped_fields, init_default, transparent_field", "crates/musli-macros/src/internals/packed.rs", "crates/musli/tests/skip_encoding.rs"]}
{"id": "C122", "title": "Floats in JSON documents", "statement": "A value of any supported type with f32 and f64 anywhere in it, whose floats are written by a printer of shortest (or any other) round-tripping decimal numbers, is written as JSON, can be skipped, and is read back bit for bit, including negative zero and subnormal numbers; no two values are written alike. This holds for every value, including infinities and NaNs.", "quantifier": "all types, all values, all bytes following the value, all printers which meet the stated requirements", "why_tests_cant": "There are 2^64 floats, in all types and documents.", "anchors": ["crates/musli/src/json/en/mod.rs: encode_f32, encode_f64", "crates/musli/src/json/de/mod.rs: decode_f32, decode_f64", "crates/musli/src/json/parser.rs: parse_f32, parse_f64", "crates/musli/src/dec2flt/mod.rs: dec2flt"]}
{"id": "C123", "title": "Types of the standard library in JSON", "statement": "Addresses, socket addresses, ranges, C strings and paths are written to JSON as strings, arrays and objects with one member, as documented by their implementations; what is written is JSON and is decoded to the same value, as is every other text which represents it (whitespace, escapes); exactly the texts of that shape which stand for a value are accepted; paths of another platform are rejected; the types can be keys of maps.", "quantifier": "all values and inputs, both modes, all types of bounds of ranges", "why_tests_cant": "All values, and all inputs.", "anchors": ["crates/musli-core/src/impls/net.rs", "crates/musli-core/src/impls/range.rs", "crates/musli-core/src/impls/mod.rs: CStr, PlatformTag", "crates/musli-core/src/impls/alloc.rs: CString, OsString, PathBuf", "crates/musli/src/json/en/mod.rs", "crates/musli/src/json/de/mod.rs", "crates/musli/src/json/en/object_key_encoder.rs", "crates/musli/src/json/de/key_decoder.rs"]}
{"id": "C124", "title": "Types of the standard library as values", "statement": "Addresses, socket addresses, ranges, C strings and paths can be encoded as a Value, and are decoded from that Value to what was encoded; a path of another platform is rejected.", "quantifier": "all values, both modes, all types of bounds of ranges, both platforms", "why_tests_cant": "All values of all types.", "anchors": ["crates/musli-core/src/impls/net.rs", "crates/musli-core/src/impls/range.rs", "crates/musli-core/src/impls/mod.rs: CStr, PlatformTag", "crates/musli-core/src/impls/alloc.rs: CString, OsString, PathBuf", "crates/musli/src/value/en.rs", "crates/musli/src/value/de.rs"]}
{"id": "C125", "title": "Which types can be derived, and as what", "statement": "The derives of Encode and Decode accept the same types, exactly those whose attributes are used as documented; if a type is not accepted an error is reported; the representation chosen is the documented one, for encoding and for decoding alike, for every variant; and the code for decoding initialises every field.", "quantifier": "all structs and enums with any number of variants and fields, and all combinations of tag, content, packed, transparent, untagged, default, skip, skip_encoding_if, name, pattern and with", "why_tests_cant": "All combinations of attributes; tests have a few of them.", "anchors": ["crates/musli-macros/src/internals/build.rs: setup, validate", "crates/musli-macros/src/internals/attr.rs: enum_tagging", "crates/musli-macros/src/en.rs: encode_default, encode_variant, encode_internal_variant", "crates/musli-macros/src/de.rs: decode_struct, decode_enum, decode_variant_name", "crates/musli/help/derives.md"]}
{"id": "C126", "title": "References to a buffer are variables", "statement": "Assigning to a value, to an element of a slice or to a string through load_mut, and writing through load_uninit_mut, succeeds exactly if it is in the buffer and can be loaded, and overwrites its bytes and nothing else. Whatever is assigned, written and exchanged through references which do not overlap, in the end each of them loads what was assigned to it last, everything else is unchanged, and all bytes of the buffer are initialised.", "quantifier": "all buffers of any contents and address, all zero-copy types, offsets, values and sequences of assignments, writes and swaps, in builds with and without overflow checks", "why_tests_cant": "All histories, offsets and contents; uninitialised memory cannot be seen by tests.", "anchors": ["crates/musli-zerocopy/src/buf/buf.rs: load_mut, load_at_mut, load_sized_mut, load_unsized_mut, get_mut, swap", "crates/musli-zerocopy/src/buf/owned_buf.rs: load_uninit_mut", "crates/musli-zerocopy/src/buf/slice_mut.rs: load_uninit_mut", "crates/musli-zerocopy/src/mem/maybe_uninit.rs: write, uninit"]}
{"id": "C127", "title": "Aligned copies of buffers", "statement": "to_aligned, to_aligned_with, aligned_buf and aligned_buf_with return the buffer itself if it is aligned and otherwise a copy with the same bytes which is aligned, and panic exactly if the alignment is no power of two or the copy too large; to_owned is a copy with the same bytes and at least the same alignment; what can be loaded from the buffer can be loaded from the copy.", "quantifier": "all addresses, contents, alignments and allocators", "why_tests_cant": "All addresses; the address of a buffer in a test is chosen by the allocator.", "anchors": ["crates/musli-zerocopy/src/buf/buf.rs: to_aligned, to_aligned_with, alignment, to_owned", "crates/musli-zerocopy/src/buf/mod.rs: aligned_buf, aligned_buf_with"]}
{"id": "C128", "title": "References are compared as what they refer to", "statement": "References to the same type are equal exactly if their offsets and lengths are, which is when cmp says so and when they are hashed to the same; cmp is a total order; and it orders references by the offset, and for equal offsets by the length.", "quantifier": "all references, types of offsets, byte orders and platforms", "why_tests_cant": "All platforms and byte orders; a test runs on one platform.", "anchors": ["crates/musli-zerocopy/src/pointer/ref.rs: PartialEq, Eq, PartialOrd, Ord and Hash for Ref", "crates/musli-zerocopy/src/pointer/ref.rs: to_ne"]}
{"id": "C129", "title": "Strings are decoded with the memory there is", "statement": "Whatever memory the allocator has, a JSON string is decoded to what it is decoded to with unlimited memory, or it is refused for want of memory, and never decoded to another string. Without memory exactly the strings without escapes are decoded, and as many bytes of memory as there is input always suffice.", "quantifier": "all inputs and all allocators, whose answers may depend on all requests made before", "why_tests_cant": "All inputs, and all points at which the memory may run out.", "anchors": ["crates/musli/src/json/parser/string.rs: SliceAccess::parse_string, parse_escape", "crates/musli/src/json/parser/slice_parser.rs: parse_string", "crates/musli/src/json/de/mod.rs: decode_string", "crates/musli-core/src/alloc/vec.rs: extend_from_slice, push", "crates/musli-core/src/alloc/disabled.rs"]}
{"id": "C130", "title": "The text of an error says where it is", "statement": "The text of an error has the path of the value: members, with the types of their values, and what is inside of a type in braces which are nested as the values are. Errors which differ in their path, their message or their position have different texts, and a report has one line for each error.", "quantifier": "all paths (any nesting, names and keys), messages, positions and numbers of errors", "why_tests_cant": "The tests compare three texts; that two texts are different must hold for all pairs of errors, and keys come from the input.", "anchors": ["crates/musli/src/context/trace.rs: FormatPath, Display for Error, Report", "crates/musli-macros/src/de.rs: enter_struct, enter_enum, enter_variant, enter_named_field"]}
{"id": "C131", "title": "Variants are swapped in pairs", "statement": "With #[zero_copy(swap_bytes)] a variant is swapped for the one named in its attribute or, without one, by its name without underscores around it; a variant which names none is swapped for the one which names it. Which enums are accepted follows from that alone, and if the type says that it can be swapped, a variant's partner has the discriminant with its bytes reversed and is swapped back to it.", "quantifier": "all enums: any number, names and attributes of variants and any discriminants", "why_tests_cant": "A test compiles one enum; what the macro accepts and how it pairs variants must hold for all enums.", "anchors": ["crates/musli-zerocopy-macros/src/zero_copy/mod.rs: expand, unpad_variant"]}
{"id": "C132", "title": "Tries show their keys as literals", "statement": "The debug output of a trie shows a key as a string literal of Rust which stands for the key, with U+FFFD for every byte which is not part of a character; so tries with different keys look different.", "quantifier": "all keys (arbitrary bytes), tries and values, whichever characters core shows as they are", "why_tests_cant": "There is no test of it; keys are arbitrary bytes, and that two outputs differ must hold for all pairs of tries.", "anchors": ["crates/musli-zerocopy/src/lossy_str.rs: LossyStr", "crates/musli-zerocopy/src/trie/mod.rs: Debug"]}
{"id": "C133", "title": "Implementations by hand are completed", "statement": "An implementation of Encoder, Decoder, Visitor or UnsizedVisitor with the attribute macro has every associated type and function which the trait requires exactly once, whatever is written and under which cfg conditions; what is written is kept, and nothing else is put in.", "quantifier": "all implementations (items, type parameters, cfg conditions) and all configurations of features", "why_tests_cant": "A test compiles an implementation in one configuration; that each name is defined once must hold in all configurations of all implementations.", "anchors": ["crates/musli-macros/src/types.rs: Types::expand, never_type, ENCODER_TYPES, DECODER_TYPES, VISITOR_TYPES, UNSIZED_VISITOR_TYPES", "crates/musli-macros/src/lib.rs: encoder, decoder, visitor, unsized_visitor"]}
{"id": "C134", "title": "Derived code is for the type that is compiled", "statement": "When #[derive(ZeroCopy)] compiles, what is validated of a struct, or of an enum after its discriminant, are the types of all fields of the type that is compiled, in the order of their places, but for zero-sized ones, even if attribute macros below the derive change the type after the derive has seen it.", "quantifier": "all structs and enums as they are seen and all types which are compiled", "why_tests_cant": "A ui test shows that certain changes do not compile; that no change which compiles leaves a field out must hold for every change of every type.", "anchors": ["crates/musli-zerocopy-macros/src/zero_copy/mod.rs: expand, process_fields, build_field_exhaustive_pattern, Fields", "crates/musli-zerocopy/tests/ui/deny_sneaky_field_error.rs", "crates/musli-zerocopy-macros/src/lib.rs: sneaky_fields"]}
