{
 "C01": {
  "note": "All widths >= 8 bits, all suffixes."
 },
 "C05": {
  "note": "False of the code: excess bits of the last group are dropped (C05_varint_exact_violated). Proved: the value is the denoted number modulo 2^w.",
  "status": "partial"
 },
 "C10": {
  "note": "Options without the bitwise fast path; every well-formed type of the universe `Ty`. With the fast path: C11. Enums with a variant one of whose fields has skip_encoding_if are excluded: they announce a wrong number of entries (C17_violated_variant, C13_violated_variant, C34_violated_variant, C121)."
 },
 "C100": {
  "note": "Any implementation of maps and sets that satisfies the contract of the standard library (Spec/Collections.lean), of which there are instances for every iteration order. For types supported by the options (C10–C12, C16). Eq of keys is equality of values in the model."
 },
 "C101": {
  "note": "write_all and BufWriter of the standard library are modelled after their documentation. C101_buffered_success_loses shows that with a BufWriter passed by value, success can be returned although data is lost."
 },
 "C102": {
  "note": "The writer does not fail (see C24, C101 for writers which do), no memory is exhausted. A packed struct inside of wire or descriptive also needs that its contents are shorter than the limit; this refers to the encoding of the contents."
 },
 "C103": {
  "note": "Proved unless integers, floats and lengths all have fixed width (so for the default options), and for wire and descriptive with any options if there are no packed structs. False otherwise: is_native_fixed ignores the byte order, so with fixed().byte_order(Big) slices and packed structs are copied in the order of the machine (C103_violated_storage, C103_violated_wire_pack). usize has 64 bits in the model.",
  "status": "partial"
 },
 "C104": {
  "note": "Spec/Upgrade.lean is the relation between what was written and what is read. With lengths of fixed width in wire it is false where an unknown field contains a usize, see C13. Removing trailing elements of tuples is not part of the relation. JSON: the reader's type satisfies jsonOk (null is unambiguous).",
  "status": "proved"
 },
 "C105": {
  "note": "The full statement is false: with options under which values are copied bitwise, insert_entry/push of an array writes no length while the derived implementation writes one (C105_violated_bitwise); and an announced number is never compared with what is written (C105_violated_wrong_number). Wire: one value except for usize with fixed lengths (C13). Everything else is proved: Says (Spec/Calls.lean) relates calls to values. Not for unknown or skipped values that contain enums with skip_encoding_if on fields of variants (C17).",
  "status": "partial"
 },
 "C106": {
  "note": "Proved for storage, packed, wire and descriptive decoding into every type (C106_binary_partial). The full statement is false: skip_any of JSON is recursive, so nested brackets in any unknown field or () overflow every stack (C106_violated_json; bounded by the number of brackets, C106_json_skip_partial); decoding a Value recurses with the document in JSON and descriptive (C106_violated_json_value, C106_violated_descriptive_value).",
  "status": "partial"
 },
 "C107": {
  "note": "Proved for storage, packed, wire and descriptive (C107_binary_str_partial, _bytes_partial, _part_partial), and for Cow<str> and decode_unsized in JSON (C107_json_agree_partial). The full statement is false: in JSON &str decodes exactly from literals without escapes (C107_json_str_partial), so not what a string with a quote encodes to (C107_violated_json_str); &[u8] never decodes from JSON (C107_violated_json_bytes), nor from what it itself encodes to in wire and descriptive, which is a sequence (C107_violated_slice).",
  "status": "partial"
 },
 "C108": {
  "note": "Proved for types with at most one custom mode (C108_resolution_partial, _implemented_partial, _errors_partial), and in general C108_isolated, C108_sound, C108_items. The full statement is false: modes are kept by kind, and all custom modes have the same one, so of two custom modes only the last is implemented (C108_violated_custom) with the attributes of both (C108_violated_mixed), and the same attribute for both is an error (C108_violated_twice); without a mode there are implementations for Binary and Text only, not for all (C108_violated_default).",
  "status": "partial"
 },
 "C109": {
  "note": "Proved: the rule (C109_rule, C109_rule_variants), the type and how it is decoded (C109_type), the names (C109_names), and exactly when a name made up by the derive has the type of names (C109_typed_iff, C109_typed_partial). The full statement is false: with name(type = [u8]) the names made up are string literals (C109_violated_bytes), and tuples with a rule for text have indexes where names are str (C109_violated_tuple); such derives do not compile. The type is never inferred from the names given, although documented (C109_violated_infer).",
  "status": "partial"
 },
 "C11": {
  "note": "False of the code (C11_full_statement_false, with witnesses); proved for the types accepted by the computable predicate Supported.",
  "status": "partial"
 },
 "C110": {
  "note": "Proved for all floats and integer types: the result is the float without its fraction, clamped to the range, 0 for NaN (C110_float_as_integer_partial), hence exact where the float is an integer in range (C110_exact_partial); floats are read bit by bit and only from floats of the type (C110_float). The full statement is false: 1.5, NaN, infinity and -1.0 are read as u8 without an error (C110_violated); integers are never read as floats (C110_violated_integer_as_float).",
  "status": "partial"
 },
 "C111": {
  "note": "Proved: construction, accessors, bytes, portability and load for all platforms and byte orders (C111_construct, C111_read, C111_portable, C111_load), exactly when split_at panics and what it returns otherwise (C111_split_at), elements if the slice is in the byte order of the platform (C111_get_partial). The full statement is false: get and get_unchecked return a Ref<T, E, usize>, whose offset is swapped when made and not when read (C111_violated_get, as in C55); a slice whose elements lie beyond the range of the type of offsets cannot be split there (C111_violated_split).",
  "status": "partial"
 },
 "C112": {
  "note": "Descriptive: proved for everything without variants of enums (C112_any_partial, C112_types_partial). With a variant anywhere it always fails: the AnyVisitor of the serde bridge has no visit_variant (C112_violated_variants, C112_full_statement_false). JSON: every text is shown as its document (C112_json_shows_text, C112_json_any), and data without floats, characters, bytes, options and other keys than strings as it is, with variants (C112_json_kept_partial); JSON has no way to tell these apart. Modelled with a visitor which accepts every call and reads everything, as serde's Content does.",
  "status": "partial"
 },
 "C113": {
  "note": "Proved: every usize which exists on the reading machine (C113_usize_partial), every isize in descriptive (C113_isize_descriptive_partial), every nonnegative one in storage and wire (C113_isize_partial), all with equal widths (C113_isize_same_width_partial); errors for numbers which do not exist there if the width is fixed or they have more than 35 bits. False of the code otherwise: variable-length numbers of 33 to 35 bits lose their upper bits (C113_violated_usize, C113_violated_isize_descriptive); negative isize in storage and wire become 2^32+v on a wider machine and unreadable on a narrower one (C113_violated_isize_wider, C113_violated_isize_narrower). C113_model_w64 ties the model to the 64 bit one. Bitwise copies (all options fixed) are C103/C105.",
  "status": "partial"
 },
 "C114": {
  "note": "Proved for all types without isize and all values which exist with 32 bits, whichever machine writes and reads (C114_documents_partial); everything round-trips between machines of the same width, also 32 bits with isize (C114_round_trip); what 32 bits write 64 bits write too, the same bytes in storage and wire (C114_same_bytes). False of the code otherwise: isize (C114_violated_isize), lists of 2^32 elements and more are cut off silently on 32 bits (C114_violated_length), copies of slices carry a length of the machine's own width (C114_violated_copy, _copy_all). C114_model_w64 and C114_copy_w64 tie the model to the 64 bit one.",
  "status": "partial"
 },
 "C115": {
  "note": "Proved for elements which can be told apart without tags (Packable) in storage, packed, wire, descriptive, through Value and in JSON. The full statement is false of the code: options inside of packs take no space, Packed([None, Some(5)]) is silently read as [Some(5), None] in all binary formats (C115_violated_options, C115_full_statement_false); with native options a packed tuple copies its arrays where the packed struct writes their length (C115_violated_struct).",
  "status": "partial"
 },
 "C116": {
  "note": "The allocator is any function that grants or refuses each request; how System and Slice do that and keep the bytes is C32, C88-C90. Display implementations are all finite sequences of write_str and write_char which may depend on the results. Padding and flags of format strings are not modelled. collect_string with an implementation that ignores failed writes can return a text with parts missing (shown as an example); errors of the implementation are reported as AllocError.",
  "status": "proved"
 },
 "C117": {
  "note": "Comparisons of integers, slices, tuples and Option are those of the standard library, modelled by their documentation. That the order of bit patterns is the order of floats is proved against the IEEE 754 specification of C83.",
  "status": "proved"
 },
 "C118": {
  "note": "Proved for all formats and pairs of types but reading JSON as &[u8], which always fails: the JSON decoder collects the numbers and offers them with visit_owned, which the visitor of &[u8] does not accept (C118_violated_json_slice, C118_full_statement_false). That a JSON array with too many elements panics is C31. A VecDeque is modelled as its two slices; allocating does not fail.",
  "status": "partial"
 },
 "C119": {
  "note": "Proved but for options of what can be null (Some(()) is null and read as None: C119_violated_option_unit) and, for the same JSON as Müsli's own derive, unit structs and enums of unit variants (C119_violated_unit_struct, C119_violated_unit_variant); the full statement is false (C119_full_statement_false). Floats are read, but not written, in this model (see C122).",
  "status": "partial"
 },
 "C12": {
  "note": "Every well-formed type of the universe `Ty`. Enums with a variant one of whose fields has skip_encoding_if are excluded: they announce a wrong number of entries (C17_violated_variant, C13_violated_variant, C34_violated_variant, C121)."
 },
 "C120": {
  "note": "Unknown entries of wire as far as wire can skip them (C13). Not for unknown or skipped values that contain enums with skip_encoding_if on fields of variants (C17)."
 },
 "C13": {
  "note": "False of the code for usize/isize/indexes with a fixed length width (C13_full_statement_false); proved for everything else. Also false for enums with skip_encoding_if on fields of variants (C13_violated_variant).",
  "status": "partial"
 },
 "C14": {
  "note": "Proved for all unknown values which wire can skip: with variable lengths (the default) all values, with a fixed length width all except those containing usize/isize/indexes, for which it is false (C14_violated_fixed_usize).",
  "status": "partial"
 },
 "C16": {
  "note": "Every well-formed type of the universe `Ty`. Enums with a variant one of whose fields has skip_encoding_if are excluded: they announce a wrong number of entries (C17_violated_variant, C13_violated_variant, C34_violated_variant, C121)."
 },
 "C17": {
  "note": "False of the code for enums with a variant one of whose fields has skip_encoding_if: the number of entries announced is 1 (C17_full_statement_false, C17_violated_variant). Proved for everything else (Ty.counted).",
  "status": "partial"
 },
 "C18": {
  "note": "False of the descriptive decoder's sequences (C18_full_statement_false); proved for wire sequences and maps of any skippable element types, for descriptive sequences with at most one left-over element and for descriptive maps with any number of left-over entries; storage reports an error instead.",
  "status": "partial"
 },
 "C19": {
  "note": "False of the code (C19_full_statement_false): narrowing reads truncate. Proved for reads at the same or a larger width, for all values in range of the target width, and rejection of numbers beyond 2^(7*ceil(w/7)).",
  "status": "partial"
 },
 "C22": {
  "note": "C22_local excludes options in packed mode, which are positional by design."
 },
 "C27": {
  "note": "False of the code (C27_full_statement_false): the addition of a digit is unchecked. Proved: in-range numerals decode exactly; out-of-range numerals are rejected unless a prefix of them is one of 2^w..2^w+3; accepted numerals decode to their number modulo 2^w.",
  "status": "partial"
 },
 "C30": {
  "note": "Types by the computable predicates jsonOk (null unambiguous, skipped fields have a default) and jsonNames (distinct names). Floats: C122."
 },
 "C31": {
  "note": "False of the code (C31_full_statement_false): too many elements panic, always (C31_more_panics). Proved: exactly N accepted, fewer rejected. With an error instead of the store out of bounds all of it holds (C31_corrected).",
  "status": "partial"
 },
 "C32": {
  "note": "False of the code (three counterexamples, C32_violated_by_*: header reuse, append of an adjacent buffer, header overlapping a region). Proved for all histories of the code in which no operation runs into one of the defects (C32_partial), and for all histories when the three defects are corrected (C32_corrected). Headers are modelled as a map, not as bytes of the buffer; zero sized types and concurrent use are not modelled.",
  "status": "partial"
 },
 "C33": {
  "note": "False of the code after errors (C33_full_statement_false). Proved after success, for all types and for skip.",
  "status": "partial"
 },
 "C34": {
  "note": "Unknown values that contain such variants (Ty.counted) cannot be skipped (C34_violated_variant, C17). Everything else is proved.",
  "status": "partial"
 },
 "C36": {
  "note": "False of the code for SliceReader (C36_full_statement_false). Proved for &[u8], Vec, FixedBytes.",
  "status": "partial"
 },
 "C39": {
  "note": "Recursion depth (stack) is not modelled; integer arithmetic as in release mode."
 },
 "C40": {
  "note": "All inputs, all types of the modelled universe; options without the bitwise fast path (which is C11). The grammar is Spec/Grammar.lean."
 },
 "C41": {
  "note": "False of the code (C41_full_statement_false, C41_more_counterexamples: 1.00e1, 0e5, 1000e-1 rejected, 0.256 accepted as 0). Proved: numbers denoting an integer in range decode to it except for three kinds listed in the theorem; whatever is accepted denotes the result unless digits wrap (C27).",
  "status": "partial"
 },
 "C42": {
  "note": "False of the code as stated (C42_full_statement_false: [1 2] is accepted). Proved for every input and type: what is accepted is a text of Spec/Json/Loose.lean, i.e. RFC 8259 plus the listed liberties (repeated, missing or trailing commas, missing digits after a point or in an exponent, junk after an integer key, invalid UTF-8 in skipped strings). Exact for bool and char.",
  "status": "partial"
 },
 "C43": {
  "note": "Slices are modelled as lists of loaded values; that loads of elements of an in-bounds slice succeed is a premise of the model (loadFrom), dropped in C43_no_other_error.",
  "status": "proved"
 },
 "C44": {
  "note": "Hash function and key equality are arbitrary; 64-bit usize; control bytes and entries are separate lists (the buffer layout is C48+). p and q are the building and the reading platform.",
  "status": "proved"
 },
 "C45": {
  "note": "False of the code: tables built with 16-byte groups (x86) miss keys when read with 8-byte groups, and the converse fails with an error. Proved for platforms with the same group width.",
  "status": "partial"
 },
 "C46": {
  "note": "False of the code for 8 and more entries (8 entries give len 9); proved exactly which number is returned. With the growth subtracted from the capacity the length is right, and nothing else changes (C46_corrected).",
  "status": "partial"
 },
 "C47": {
  "note": "False of the code for types without an all-zero value, since empty buckets are validated too; proved for all other types. With validation of the buckets in use only, a stored table can be bound if and only if the stored entries are valid, for all types (C47_corrected).",
  "status": "partial"
 },
 "C48": {
  "status": "partial",
  "note": "False of the code for two reasons: store_raw applies the inverse of the permutation the lookup needs, so a map of three entries can lose all of them (C48_full_statement_false); and displacements are stored in the order of the sizes of the buckets but looked up by their numbers, so a map of six entries which are all in their places loses all of them (C48_violated_by_order). Proved for all sizes: no panic, lookups never fail and never return a wrong entry. For up to five entries C48_exact_partial says which are found. With the two corrections the full statement holds for all maps and sets (C48_corrected, C48_set_corrected)."
 },
 "C49": {
  "note": "False of the code: a duplicate key makes the search run forever (the loop over random keys has no end), and so do keys with equal hashes under every random number. Proved to end for up to one entry (C49_small_partial), and for any number of entries if under one of the random numbers the third hashes of all keys have different remainders by their number (C49_perfect_partial).",
  "status": "partial"
 },
 "C50": {
  "note": "False in two corners: a phf map without entries but with displacements divides by zero; a swiss mask within 16 of 2^64 overflows in debug builds. Proved for all other contents.",
  "status": "partial"
 },
 "C51": {
  "note": "False for packed(N) structs with fields of a lesser alignment, structs with an ignored field of a greater alignment, aligned structs in packed ones (incl. Wrapping), load_at_unaligned of types with aligned fields, and offsets whose sum with the size overflows (panic in debug builds): C51_violated_by_*. Proved for all types without these (LoadOk); strings without restriction.",
  "status": "partial"
 },
 "C52": {
  "note": "False for packed(N) structs with fields of a lesser alignment and structs with an ignored field of a greater alignment: C52_violated_by_*. Proved for all other types (StoreOk).",
  "status": "partial"
 },
 "C53": {
  "note": "Proved for all histories with types for which storing and loading are right (C51, C52). A SliceMut panics although there is room, if it is shorter than the requested alignment: C53_violated_by_slice. For SliceMut C53_total_slice_partial says exactly which histories of calls do not panic.",
  "status": "partial"
 },
 "C54": {
  "note": "False: aligning the clone of an empty buffer with a pending alignment allocates zero bytes (C54_violated_by_clone). Proved for all histories which do not clone such a buffer, for the types of C52.",
  "status": "partial"
 },
 "C55": {
  "note": "False for usize in the byte order which is not that of the platform: C55_violated_by_usize. Proved for all other size types, and for usize in the platform's order.",
  "status": "partial"
 },
 "C56": {
  "note": "False: the iterator over a slice of zero-sized elements returns nothing (C56_violated_by_zero_sized). Loading is for the types of C51.",
  "status": "partial"
 },
 "C57": {
  "note": "False in the byte order which is not that of the platform: C57_violated_by_byte_order, C57_violated_by_array_into_slice. Proved for the platform's byte order.",
  "status": "partial"
 },
 "C58": {
  "note": "False for enums in which variants that are swapped for each other have their fields in different orders: C58_violated_by_field_order. Proved for all other types. Floats are their bits.",
  "status": "partial"
 },
 "C59": {
  "note": "For isize the machine which compiles must not have smaller pointers than the target (C59_cross_compilation). That syn prints an expression such that it parses as the same tree is assumed; repr(usize) is not supported by the derive macro."
 },
 "C60": {
  "note": "The nodes are trees: that storing and loading them is faithful is C51 and C52. That offsets and lengths fit the types of the flavor is assumed."
 },
 "C61": {
  "note": "Proved for strings which were inserted, if the insertions were in order (sorted, or such that what a key has in common with an earlier greater one is also a prefix of an earlier one which is not greater). C61_violated_by_order: after abd, abc, abe looking up abc returns None. C61_violated_by_absent_key: after ab, abc looking up ac returns the values of abc. With two corrections of insert and get (C61_corrected) it holds for any key and any order.",
  "status": "partial"
 },
 "C62": {
  "note": "Proved for prefixes of strings which were inserted, under the same condition on the order. C62_violated_by_order: after working, work iterating from workin yields nothing. C62_violated_by_absent_prefix: after ab, abc iterating from ac yields a key bc. With corrections of insert and of the search for the prefix (C62_corrected) it holds for any prefix and any order.",
  "status": "partial"
 },
 "C63": {
  "note": "Proved for types in which () is neither the payload of an option nor an element of a sequence or tuple. C63_violated_*: encode_empty writes nothing, so that Some(()) cannot be decoded, vec![(), ()] becomes an empty vector and ((), 5) cannot be decoded. An encoder that writes Value::Unit in encode_empty, and is otherwise the code, satisfies the full statement (C63_corrected, C63_corrected_same).",
  "status": "partial"
 },
 "C64": {
  "note": "Floating point numbers read as integers saturate (modelled, not part of the statement)."
 },
 "C65": {
  "note": "Decoding: proved. Encoding: proved for values without Unit in a sequence or option. C65_violated: a sequence loses its units and Some(unit) becomes unit.",
  "status": "partial"
 },
 "C66": {
  "note": "Proved for types without packed structs for all options, and for all types with the default options. C66_violated_packed_fixed: the buffer is read with BUFFER_OPTIONS instead of the options of the encoding, so that a packed struct with fixed-width integers is decoded as a different value without an error.",
  "status": "partial"
 },
 "C67": {
  "note": "Proved up to usize/isize becoming u64/i64 (C67_violated_usize), which no decoding can observe (C67_width_not_observable).",
  "status": "partial"
 },
 "C68": {
  "note": "Wire and descriptive: proved for types in which () is neither the payload of an option nor an element of a sequence (C68_violated_unit). Storage: also without byte arrays of a fixed size (C68_violated_storage_bytes) and packed structs (C68_violated_storage_packed), which get a length. Not for unknown or skipped values that contain enums with skip_encoding_if on fields of variants (C17).",
  "status": "partial"
 },
 "C69": {
  "note": "Numbers with a fraction or exponent are floats or integers depending on parse_float and are not part of the statement; the float conversion is a parameter."
 },
 "C70": {
  "note": "Proved for types without floats, char, bytes, options, results, packed structs and enums with data. C70_never_partial: none of the latter (except floats) can be decoded through a buffer from any document, because JSON's decode_any never produces Value::Option, Char, Bytes or Variant, which the value decoder insists on. So an internally tagged enum with an optional field cannot be decoded from JSON (C70_violated_option).",
  "status": "partial"
 },
 "C71": {
  "note": "Holds in wire, descriptive and JSON, and in storage and packed unless numbers are used as names with fixed width options and a byte order which is not that of the machine: the tag and the variant are written by `insert_entry` in native order, and read in the configured order (C71_violated_order). Not for unknown or skipped values that contain enums with skip_encoding_if on fields of variants (C17).",
  "status": "partial"
 },
 "C72": {
  "note": "Unknown values with usize and fixed lengths cannot be skipped in wire (C13); this is a hypothesis. Not for unknown or skipped values that contain enums with skip_encoding_if on fields of variants (C17)."
 },
 "C73": {
  "note": "Proved for bodies that are structs whose field names are of the same kind as the tag and differ from it. False otherwise: a string tag with fields named by numbers, the default in binary mode, cannot be decoded (C73_violated_names); a transparent map gets the tag as an entry (C73_violated_map), or cannot be encoded (C73_violated_encode); in JSON options, chars, bytes and nested enums cannot be decoded (C70, C73_violated_option).",
  "status": "partial"
 },
 "C74": {
  "note": "Known fields are without packed structs in descriptive (C66), and in JSON of types that can be buffered (C70). Not for unknown or skipped values that contain enums with skip_encoding_if on fields of variants (C17)."
 },
 "C75": {
  "note": "The value is right but unless it is the last variant nothing is consumed: the variant is decoded from a clone and the decoder is not advanced. A sequence is then decoded as copies of its first element, and in JSON never ends. With a parser which cannot be cloned only the last variant is ever decoded. With a correction, that the clone is kept after success, everything holds in all formats (C75_corrected, C75_corrected_sequence, C75_corrected_json).",
  "status": "partial"
 },
 "C76": {
  "note": "Unknown bodies in wire must be skippable, see C13. Not for unknown or skipped values that contain enums with skip_encoding_if on fields of variants (C17)."
 },
 "C77": {
  "note": "The counter of bytes wraps as in release builds; in debug builds more than 2^bits bytes in one hash are a panic."
 },
 "C78": {
  "note": "Holds for maps whose keys are hashed as bytes (strings). `SetRef` has its key in native order (C78_violated_set), and numbers are hashed in native order (C78_violated_numbers).",
  "status": "partial"
 },
 "C79": {
  "note": "Without overflow checks a reference near the end of the address space passes the bounds check, and memory outside of the buffer is accessed (C79_violated_overflow). Equal references are not checked (C79_violated_same). With a checked sum and references checked even if they are equal all of it holds (C79_corrected, C79_corrected_same).",
  "status": "partial"
 },
 "C80": {
  "note": "The clone of a guard does not check for overflow: with 2^bits forgotten clones the counter is zero again (C80_violated_clone); the theorem is for shorter histories. With the check of overflow also in the clone it holds for all histories (C80_corrected, C80_corrected_unchanged, C80_corrected_aborts).",
  "status": "partial"
 },
 "C81": {
  "note": "Exact without failures of allocations. With failures, false for keys which cannot be formatted (C81_violated_key), contexts which are reused (C81_violated_clear), and if there is room again (C81_violated_room).",
  "status": "partial"
 },
 "C82": {
  "note": "False for decoders which recover from errors, which untagged enums do: their failed attempts stay in the report, in `result` and in the path (C82_violated_untagged, C82_violated_path).",
  "status": "partial"
 },
 "C83": {
  "note": "Proved for all literals with an exponent below 655360 or at most 65000 digits. Otherwise false: the exponent is not read to its end (C83_violated). Operations of the hardware (multiplication, division, conversion) are assumed to be those of IEEE 754.",
  "status": "partial"
 },
 "C84": {
  "note": ""
 },
 "C85": {
  "note": "Lengths are not bounded in the model; in the code the number of digits after the dot is converted to i32."
 },
 "C86": {
  "note": "Holds without whitespace in front. With whitespace it is an error, for example after the colon in `{\"a\": 1.5}` (C86_violated, C86_violated_field). With whitespace skipped before a float all of it holds (C86_corrected, C86_corrected_field, C86_corrected_accepted), and whatever is read now is read as before (C86_corrected_extends).",
  "status": "partial"
 },
 "C87": {
  "note": "Complete values are skipped exactly in both builds; with overflow checks success implies a complete value; with lengths of at most 32 bits both directions hold and nothing panics. Otherwise false: the additions and the multiplication by two of lengths from the input overflow, which panics in one kind of build, and in the other makes skipping succeed in the middle of a value (C87_violated_panic, C87_violated_release, C87_violated_not_items).",
  "status": "partial"
 },
 "C88": {
  "note": "Holds for the code as it is if elements are Copy, or have a positive size and destructors do not panic. Otherwise false: after a destructor has panicked in `clear` the vector still has the dropped values (C88_violated_clear). With two corrections it holds in general (C88_corrected).",
  "status": "partial"
 },
 "C89": {
  "note": "Holds for the code as it is for elements of positive size whose destructors do not panic. Otherwise false: values of size zero are dropped when they are pushed or boxed and again later (C89_violated_zero_sized, C89_violated_box), and `clear` (C89_violated_clear). With two corrections it holds in general (C89_corrected).",
  "status": "partial"
 },
 "C90": {
  "note": "C90_memory and C90_layout are about the code as it is, whatever destructors do; C90_contents and C90_corrected say more of the contents, where the defects of C88/C89 cannot show or are corrected."
 },
 "C92": {
  "note": "Holds for conventional identifiers (C92_fields_partial, C92_variants_partial); exactly which ASCII identifiers collide is C92_collision_iff. In general false: `kind` and `kind_` (C92_violated), the derive accepts them and what it encodes cannot be decoded (C92_violated_roundtrip).",
  "status": "partial"
 },
 "C93": {
  "note": "Holds for all types and formats but those where the code is wrong: paths in wire and descriptive (C93_violated_path: written as bytes, read as a sequence), paths in storage with a foreign fixed byte order (C93_violated_path_order), RangeFull where values are copied bitwise (C93_violated_rangeFull), exhausted inclusive ranges (C93_violated_exhausted), flow information in the text mode (C93_violated_flow).",
  "status": "partial"
 },
 "C94": {
  "note": "Encoding and layout hold fully (C94_encode, C94_fields). Decoding holds of all types without AtomicBool and of none with it (C94_violated_atomicBool): AtomicBool has IS_BITWISE_DECODE = true, so Vec<AtomicBool> from untrusted bytes yields a bool which is neither 0 nor 1 (C94_violated_vec).",
  "status": "partial"
 },
 "C95": {
  "note": "Holds for slices of bitwise types (C95_slice, C95_slice_memory) and, where elements take at least one byte, for other collections (C95_collection_partial, C95_bounded). False for `Value`, which allocates for the claimed length (C95_violated_value, C95_value_unbounded), and where elements take no byte: ten bytes yield 2^64-1 elements (C95_violated_empty).",
  "status": "partial"
 },
 "C96": {
  "note": "Any options, including those of the bitwise fast path, which the bridge never takes. In packed an option may only come last, since it has no marker there. What serde's own derives call is taken from serde's documentation."
 },
 "C97": {
  "note": "Holds where the fast path is off, of types without usize, isize, unit structs and unit variants (C97_same_bytes_partial, …). False for these (C97_violated_usize, _unit_struct, _unit_enum, _fast_path); serde also accepts missing options and, in wire, longer arrays (C97_violated_missing_option, _longer_array). Not for unknown or skipped values that contain enums with skip_encoding_if on fields of variants (C17).",
  "status": "partial"
 },
 "C98": {
  "note": "Descriptive and the rejection of duplicates hold fully. Wire: without unknown usize values in a fixed length width (C98_violated_fixed_usize), as C13 and C14. Not for unknown or skipped values that contain enums with skip_encoding_if on fields of variants (C17).",
  "status": "partial"
 },
 "C99": {
  "note": "Descriptive holds fully. Wire: keys and values that can be skipped, see C13. Storage: single entries only, as decode_remaining_entries works on a copy of the count (C99_violated_storage, _beyond). Value: nothing after the remaining entries (C99_violated_value). JSON: the remaining entries asked for at most once, the second time is an error.",
  "status": "partial"
 },
 "C121": {
  "status": "partial",
  "note": "Everything about #[musli(skip)] is proved. skip_encoding_if: structs fully (C10, C12, C16); enums are read back exactly if the number of fields written is the size hint of the enum, 1 or 2 for adjacently tagged ones (C121_variant_partial, C121_adjacent_partial), so the full statement is false (C121_violated_variant, C121_violated_adjacent); JSON enums are right (C121_json_variant). Packed: as stated unless the struct is copied bitwise (C121_packed_partial, C121_violated_packed), and then it cannot be read back (C121_violated_packed_decode)."
 },
 "C122": {
  "status": "partial",
  "note": "Proved for values whose floats are finite, for every ryu which is RyuLawful (Spec/Json/Finite.lean: finite numbers are JSON numbers which denote the float, NaN/inf/-inf otherwise; exactRyu shows that the requirements can be met). The full statement is false: an infinity or a NaN is not written as JSON (C122_violated_not_json), and cannot be read back if anything follows (C122_violated_inside, C122_violated_sequence); at the end of the input infinities are read back and all NaNs are read as the same one (C122_top_level)."
 },
 "C123": {
  "status": "partial",
  "note": "Proved: the shape of what is written (C123_encode), exactly what is accepted (C123_decode, C123_rejects), all representations and the round trip of all values but exhausted ranges and flow information in the text mode, which are lost (C123_violated_lost). The full statement is also false for: RangeFull, which is decoded from any value (C123_violated_rangeFull); &CStr, which never decodes (C123_violated_cstr); keys other than addresses and socket addresses of a known kind as text, so IpAddr and SocketAddr (C123_violated_keys). Display and FromStr of addresses are parameters (NetText.Lawful)."
 },
 "C124": {
  "status": "partial",
  "note": "Proved: round trip of all values but RangeFull, paths on Unix, exhausted ranges and flow information in the text mode (C124_roundtrip_partial), and that paths of the other platform are rejected (C124_platforms). The full statement is false (C124_full_statement_false): RangeFull becomes an empty sequence but is decoded from (), a path on Unix becomes bytes but is decoded from a sequence (C124_violated). Display and FromStr of addresses are parameters (NetText.Lawful)."
 },
 "C125": {
  "status": "partial",
  "note": "Proved: what is accepted (C125_accepted), that errors are reported (C125_reported), that decoding reads what encoding writes (C125_agree), and the documented representation but for untagged enums without fields and custom transparent fields with tag (C125_representation_partial). False: untagged is ignored if no variant has fields (C125_violated_untagged); a transparent variant with `with` in an internally tagged enum decodes but never encodes (C125_violated_custom); packed types with skipped fields, and default variants with `tag`, are accepted but the code does not compile (C125_complete, an equivalence). content without tag is ignored (C125_content_ignored). The code emitted is summarised by the fields, the shape and the scope of variables."
 },
 "C126": {
  "status": "partial",
  "note": "Proved for types which are loaded and stored properly (C51, C52). False: assigning a value with padding through load_mut makes bytes of the buffer uninitialised (C126_violated_by_padding), and so does assigning MaybeUninit::uninit() to what load_uninit_mut returns (C126_violated_by_uninit); without overflow checks, load_uninit_mut of an offset close to usize::MAX writes in front of the buffer (C126_violated_by_offset)."
 },
 "C127": {
  "status": "partial",
  "note": "C127_alignment, C127_to_aligned and C127_to_owned are full (the latter for buffers of up to 2^60 bytes); the loads agree for types which are loaded properly (C51), and not for others (C127_violated_by_wrapping). C127_to_owned_size: the copy made by to_owned takes at least as much memory as the address is aligned."
 },
 "C128": {
  "status": "partial",
  "note": "C128_equal and C128_total are full. The order is that of offsets and lengths in the byte order of the platform and for offsets of one byte (C128_order_partial), and of what to_ne returns (C128_to_ne); in the other byte order it is false (C128_violated_by_byte_order, C128_full_statement_false). With offsets and lengths read before they are compared all of it holds (C128_corrected, _equal, _total, _to_endian)."
 },
 "C129": {
  "note": "C129_same: the same string or refused. C129_no_memory: what is accepted without memory. C129_plain: strings without escapes need none. C129_enough: requests for less than the length of the input are all that is made. The allocator is an arbitrary function of the history of requests to grow the scratch buffer."
 },
 "C130": {
  "status": "partial",
  "note": "C130_text holds of all paths. That the text determines the error is false: keys are not escaped (C130_violated_key), a key with a line break makes up errors (C130_violated_lines), indexes look like keys (C130_violated_index), the names of transparent types run together (C130_violated_transparent), and the position is not separated from the message (C130_violated_position). Proved for paths of names in Rust with keys without ], : and line breaks which are not numbers, and messages without parentheses."
 },
 "C131": {
  "status": "partial",
  "note": "That an accepted enum is made of pairs is false: a cycle of four variants is accepted, and swapping twice is another variant (C131_violated_cycle); CAN_SWAP_BYTES is then false, but ZeroCopy::swap_bytes is public. Pairs are proved when CAN_SWAP_BYTES is true. An enum with an odd number of variants is rejected even when each is its own partner (C131_violated_odd). With a check that a variant which is named names none or the one which names it, exactly the accepted enums which are made of pairs are accepted (C131_corrected, C131_corrected_pairs)."
 },
 "C132": {
  "status": "partial",
  "note": "The literals hold of all keys (C132_literal, C132_parts, C132_denotes). That different tries look different holds of keys which are UTF-8 and values without commas and braces (C132_keys_partial, C132_map_partial); bytes which are not UTF-8 cannot be told apart (C132_violated_bytes) nor from U+FFFD (C132_violated_replacement)."
 },
 "C133": {
  "status": "partial",
  "note": "Proved of names which are written at most once, functions without conditions (C133_once_partial); what is kept and put in, and when it is an error, of all implementations. False otherwise: a type written under a condition and again under its contrary is defined twice when the condition does not hold (C133_violated_twice), a function under a condition is then missing (C133_violated_function), and Cx, Mode, Error or Allocator under a condition is then Never instead of what it is when not written (C133_violated_mode)."
 },
 "C134": {
  "status": "partial",
  "note": "Proved without swap_bytes_self: fields, names and types of all fields which are not ignored are those which were seen (C134_types_partial, C134_enum_partial), a transparent struct has at most one such field (C134_transparent_partial), and what is validated is what is compiled if the order of named fields and the types of ignored fields were not changed (C134_same_partial). False otherwise: named fields can be reordered (C134_violated_order), ignored fields get another type (C134_violated_ignored), discriminants be changed (C134_violated_discriminant), and with swap_bytes_self types can be changed (C134_violated_self_types). With repr(transparent) and swap_bytes_self the second field of struct S(PhantomData<T>, bool) is not validated without any other macro (C134_violated_self). Changes of repr, and enums with zero_copy(swap_bytes), are not modelled."
 }
}