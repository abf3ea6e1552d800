{
 "claims": [
  {
   "property": "C01",
   "status": "proved",
   "theorems": [
    "Musli.C01_varint_roundtrip"
   ],
   "note": "All widths >= 8 bits, all suffixes."
  },
  {
   "property": "C02",
   "status": "proved",
   "theorems": [
    "Musli.C02_varint_minimal",
    "Musli.C02_varint_bound",
    "Musli.C02_varint_shortest"
   ],
   "note": ""
  },
  {
   "property": "C03",
   "status": "proved",
   "theorems": [
    "Musli.C03_varint_prefix_free"
   ],
   "note": ""
  },
  {
   "property": "C04",
   "status": "proved",
   "theorems": [
    "Musli.C04_varint_consumes",
    "Musli.C04_varint_truncated"
   ],
   "note": ""
  },
  {
   "property": "C05",
   "status": "partial",
   "theorems": [
    "Musli.C05_varint_exact_violated",
    "Musli.C05_varint_exact_partial"
   ],
   "note": "False of the code: excess bits of the last group are dropped (C05_varint_exact_violated). Proved: the value is the denoted number modulo 2^w."
  },
  {
   "property": "C06",
   "status": "proved",
   "theorems": [
    "Musli.C06_zigzag_decode_encode",
    "Musli.C06_zigzag_encode_decode",
    "Musli.C06_zigzag_value"
   ],
   "note": ""
  },
  {
   "property": "C07",
   "status": "proved",
   "theorems": [
    "Musli.C07_unsigned_roundtrip",
    "Musli.C07_signed_roundtrip",
    "Musli.C07_fixed_layout",
    "Musli.C07_host_independent"
   ],
   "note": ""
  },
  {
   "property": "C08",
   "status": "proved",
   "theorems": [
    "Musli.C08_usize_roundtrip",
    "Musli.C08_usize_no_truncation"
   ],
   "note": ""
  },
  {
   "property": "C09",
   "status": "proved",
   "theorems": [
    "Musli.Opt.C09_options_independent",
    "Musli.Opt.C09_options_commute",
    "Musli.Opt.C09_defaults"
   ],
   "note": ""
  },
  {
   "property": "C10",
   "status": "proved",
   "theorems": [
    "Musli.C10_storage_roundtrip"
   ],
   "note": "Options without the bitwise fast path; every well-formed type of the universe `Ty`. With the fast path: C11. Enums with a variant one of whose fields has skip_encoding_if are excluded: they announce a wrong number of entries (C17_violated_variant, C13_violated_variant, C34_violated_variant, C121)."
  },
  {
   "property": "C11",
   "status": "partial",
   "theorems": [
    "Musli.C11_fast_path_roundtrip_partial",
    "Musli.C11_packed_roundtrip_partial",
    "Musli.C11_violated_tuple_of_bool_array",
    "Musli.C11_violated_boxed_array",
    "Musli.C11_violated_byte_order",
    "Musli.C11_full_statement_false"
   ],
   "note": "False of the code (C11_full_statement_false, with witnesses); proved for the types accepted by the computable predicate Supported."
  },
  {
   "property": "C12",
   "status": "proved",
   "theorems": [
    "Musli.C12_wire_roundtrip"
   ],
   "note": "Every well-formed type of the universe `Ty`. Enums with a variant one of whose fields has skip_encoding_if are excluded: they announce a wrong number of entries (C17_violated_variant, C13_violated_variant, C34_violated_variant, C121)."
  },
  {
   "property": "C13",
   "status": "partial",
   "theorems": [
    "Musli.C13_wire_skip_partial",
    "Musli.C13_violated_fixed_usize",
    "Musli.C13_violated_variant",
    "Musli.C13_full_statement_false"
   ],
   "note": "False of the code for usize/isize/indexes with a fixed length width (C13_full_statement_false); proved for everything else. Also false for enums with skip_encoding_if on fields of variants (C13_violated_variant)."
  },
  {
   "property": "C14",
   "status": "partial",
   "theorems": [
    "Musli.C14_violated_fixed_usize",
    "Musli.C14_wire_any_entries_partial",
    "Musli.C14_wire_reordered_partial"
   ],
   "note": "Proved for all unknown values which wire can skip: with variable lengths (the default) all values, with a fixed length width all except those containing usize/isize/indexes, for which it is false (C14_violated_fixed_usize)."
  },
  {
   "property": "C15",
   "status": "proved",
   "theorems": [
    "Musli.C15_storage_unknown_field"
   ],
   "note": ""
  },
  {
   "property": "C16",
   "status": "proved",
   "theorems": [
    "Musli.C16_descriptive_roundtrip"
   ],
   "note": "Every well-formed type of the universe `Ty`. Enums with a variant one of whose fields has skip_encoding_if are excluded: they announce a wrong number of entries (C17_violated_variant, C13_violated_variant, C34_violated_variant, C121)."
  },
  {
   "property": "C17",
   "status": "partial",
   "theorems": [
    "Musli.C17_descriptive_skip_partial",
    "Musli.C17_violated_variant",
    "Musli.C17_full_statement_false"
   ],
   "note": "False of the code for enums with a variant one of whose fields has skip_encoding_if: the number of entries announced is 1 (C17_full_statement_false, C17_violated_variant). Proved for everything else (Ty.counted)."
  },
  {
   "property": "C18",
   "status": "partial",
   "theorems": [
    "Musli.C18_wire_sequence_partial",
    "Musli.C18_descriptive_sequence_partial",
    "Musli.C18_wire_map_partial",
    "Musli.C18_descriptive_map_partial",
    "Musli.C18_storage_map",
    "Musli.C18_storage_sequence",
    "Musli.C18_violated_descriptive",
    "Musli.C18_full_statement_false"
   ],
   "note": "False of the descriptive decoder's sequences (C18_full_statement_false); proved for wire sequences and maps of any skippable element types, for descriptive sequences with at most one left-over element and for descriptive maps with any number of left-over entries; storage reports an error instead."
  },
  {
   "property": "C19",
   "status": "partial",
   "theorems": [
    "Musli.C19_same_width_partial",
    "Musli.C19_widening_partial",
    "Musli.C19_far_out_of_range_partial",
    "Musli.C19_violated_narrowing",
    "Musli.C19_full_statement_false"
   ],
   "note": "False of the code (C19_full_statement_false): narrowing reads truncate. Proved for reads at the same or a larger width, for all values in range of the target width, and rejection of numbers beyond 2^(7*ceil(w/7))."
  },
  {
   "property": "C20",
   "status": "proved",
   "theorems": [
    "Musli.C20_truncated"
   ],
   "note": ""
  },
  {
   "property": "C21",
   "status": "proved",
   "theorems": [
    "Musli.C21_unambiguous"
   ],
   "note": ""
  },
  {
   "property": "C22",
   "status": "proved",
   "theorems": [
    "Musli.C22_suffix",
    "Musli.C22_local",
    "Musli.C22_skip"
   ],
   "note": "C22_local excludes options in packed mode, which are positional by design."
  },
  {
   "property": "C23",
   "status": "proved",
   "theorems": [
    "Musli.C23_never_beyond_limit",
    "Musli.C23_limit_exact",
    "Musli.C23_nested",
    "Musli.C23_never_beyond_limit_ptr",
    "Musli.C23_failed_read_consumes_limit"
   ],
   "note": ""
  },
  {
   "property": "C24",
   "status": "proved",
   "theorems": [
    "Musli.C24_fixed_bytes",
    "Musli.C24_slice_mut_writer",
    "Musli.C24_success_iff_fits",
    "Musli.C24_to_slice"
   ],
   "note": ""
  },
  {
   "property": "C25",
   "status": "proved",
   "theorems": [
    "Musli.Json.C25_string_round_trip"
   ],
   "note": ""
  },
  {
   "property": "C26",
   "status": "proved",
   "theorems": [
    "Musli.Json.C26_string_iff"
   ],
   "note": ""
  },
  {
   "property": "C27",
   "status": "partial",
   "theorems": [
    "Musli.Json.C27_full_statement_false",
    "Musli.Json.C27_unsigned_in_range_partial",
    "Musli.Json.C27_signed_in_range_partial",
    "Musli.Json.C27_unsigned_out_of_range_partial",
    "Musli.Json.C27_signed_out_of_range_partial",
    "Musli.Json.C27_unsigned_modulo_partial"
   ],
   "note": "False of the code (C27_full_statement_false): the addition of a digit is unchecked. Proved: in-range numerals decode exactly; out-of-range numerals are rejected unless a prefix of them is one of 2^w..2^w+3; accepted numerals decode to their number modulo 2^w."
  },
  {
   "property": "C28",
   "status": "proved",
   "theorems": [
    "Musli.Json.C28_integers_round_trip"
   ],
   "note": ""
  },
  {
   "property": "C29",
   "status": "proved",
   "theorems": [
    "Musli.Json.C29_skip_any_value",
    "Musli.Json.C29_skip_encoded"
   ],
   "note": ""
  },
  {
   "property": "C30",
   "status": "proved",
   "theorems": [
    "Musli.Json.C30_round_trip",
    "Musli.Json.C30_injective"
   ],
   "note": "Types by the computable predicates jsonOk (null unambiguous, skipped fields have a default) and jsonNames (distinct names). Floats: C122."
  },
  {
   "property": "C31",
   "status": "partial",
   "theorems": [
    "Musli.Json.C31_corrected",
    "Musli.Json.C31_full_statement_false",
    "Musli.Json.C31_byte_array_partial",
    "Musli.Json.C31_more_panics"
   ],
   "note": "False of the code (C31_full_statement_false): too many elements panic, always (C31_more_panics). Proved: exactly N accepted, fewer rejected. With an error instead of the store out of bounds all of it holds (C31_corrected)."
  },
  {
   "property": "C32",
   "status": "partial",
   "theorems": [
    "Musli.Slice.C32_violated_by_reuse",
    "Musli.Slice.C32_violated_by_append",
    "Musli.Slice.C32_violated_by_overlap",
    "Musli.Slice.C32_corrected",
    "Musli.Slice.C32_partial"
   ],
   "note": "False of the code (three counterexamples, C32_violated_by_*: header reuse, append of an adjacent buffer, header overlapping a region). Proved for all histories of the code in which no operation runs into one of the defects (C32_partial), and for all histories when the three defects are corrected (C32_corrected). Headers are modelled as a map, not as bytes of the buffer; zero sized types and concurrent use are not modelled."
  },
  {
   "property": "C33",
   "status": "partial",
   "theorems": [
    "Musli.Json.C33_full_statement_false",
    "Musli.Json.C33_rest_is_utf8_partial"
   ],
   "note": "False of the code after errors (C33_full_statement_false). Proved after success, for all types and for skip."
  },
  {
   "property": "C34",
   "status": "partial",
   "theorems": [
    "Musli.C34_violated_variant",
    "Musli.C34_descriptive_any_entries_partial",
    "Musli.C34_descriptive_reordered_partial"
   ],
   "note": "Unknown values that contain such variants (Ty.counted) cannot be skipped (C34_violated_variant, C17). Everything else is proved."
  },
  {
   "property": "C35",
   "status": "proved",
   "theorems": [
    "Musli.C35_slice_reader",
    "Musli.C35_reads_in_order"
   ],
   "note": ""
  },
  {
   "property": "C36",
   "status": "partial",
   "theorems": [
    "Musli.C36_mark_slice_partial",
    "Musli.C36_violated_slice_reader",
    "Musli.C36_full_statement_false",
    "Musli.C36_mark_fixed_partial",
    "Musli.C36_mark_vec_partial"
   ],
   "note": "False of the code for SliceReader (C36_full_statement_false). Proved for &[u8], Vec, FixedBytes."
  },
  {
   "property": "C37",
   "status": "proved",
   "theorems": [
    "Musli.Json.C37_output_is_json"
   ],
   "note": ""
  },
  {
   "property": "C38",
   "status": "proved",
   "theorems": [
    "Musli.Json.C38_decode_any_representation",
    "Musli.Json.C38_unambiguous",
    "Musli.Json.C38_encoder"
   ],
   "note": ""
  },
  {
   "property": "C39",
   "status": "proved",
   "theorems": [
    "Musli.Json.C39_decode_arbitrary",
    "Musli.Json.C39_skip_arbitrary"
   ],
   "note": "Recursion depth (stack) is not modelled; integer arithmetic as in release mode."
  },
  {
   "property": "C40",
   "status": "proved",
   "theorems": [
    "Musli.C40_accepts_exactly",
    "Musli.C40_rejects_the_rest",
    "Musli.C40_storage_bool",
    "Musli.C40_string_bytes",
    "Musli.C40_encodings_are_documents"
   ],
   "note": "All inputs, all types of the modelled universe; options without the bitwise fast path (which is C11). The grammar is Spec/Grammar.lean."
  },
  {
   "property": "C41",
   "status": "partial",
   "theorems": [
    "Musli.Json.C41_full_statement_false",
    "Musli.Json.C41_more_counterexamples",
    "Musli.Json.C41_unsigned_partial",
    "Musli.Json.C41_signed_partial",
    "Musli.Json.C41_unsigned_sound_partial",
    "Musli.Json.C41_signed_sound_partial"
   ],
   "note": "False of the code (C41_full_statement_false, C41_more_counterexamples: 1.00e1, 0e5, 1000e-1 rejected, 0.256 accepted as 0). Proved: numbers denoting an integer in range decode to it except for three kinds listed in the theorem; whatever is accepted denotes the result unless digits wrap (C27)."
  },
  {
   "property": "C42",
   "status": "partial",
   "theorems": [
    "Musli.Json.C42_full_statement_false",
    "Musli.Json.C42_more_counterexamples",
    "Musli.Json.C42_accepts_only_partial",
    "Musli.Json.C42_bool",
    "Musli.Json.C42_char"
   ],
   "note": "False of the code as stated (C42_full_statement_false: [1 2] is accepted). Proved for every input and type: what is accepted is a text of Spec/Json/Loose.lean, i.e. RFC 8259 plus the listed liberties (repeated, missing or trailing commas, missing digits after a point or in an exponent, junk after an integer key, invalid UTF-8 in skipped strings). Exact for bool and char."
  },
  {
   "property": "C43",
   "status": "proved",
   "theorems": [
    "Musli.Zero.C43_binary_search_by",
    "Musli.Zero.C43_binary_search",
    "Musli.Zero.C43_no_other_error"
   ],
   "note": "Slices are modelled as lists of loaded values; that loads of elements of an in-bounds slice succeed is a premise of the model (loadFrom), dropped in C43_no_other_error."
  },
  {
   "property": "C44",
   "status": "proved",
   "theorems": [
    "Musli.Zero.Swiss.C44_map",
    "Musli.Zero.Swiss.C44_map_unique",
    "Musli.Zero.Swiss.C44_set"
   ],
   "note": "Hash function and key equality are arbitrary; 64-bit usize; control bytes and entries are separate lists (the buffer layout is C48+). p and q are the building and the reading platform."
  },
  {
   "property": "C45",
   "status": "partial",
   "theorems": [
    "Musli.Zero.Swiss.C45_full_statement_false",
    "Musli.Zero.Swiss.C45_other_direction_fails",
    "Musli.Zero.Swiss.C45_same_width_partial"
   ],
   "note": "False of the code: tables built with 16-byte groups (x86) miss keys when read with 8-byte groups, and the converse fails with an error. Proved for platforms with the same group width."
  },
  {
   "property": "C46",
   "status": "partial",
   "theorems": [
    "Musli.Zero.Swiss.C46_len_partial",
    "Musli.Zero.Swiss.C46_full_statement_false",
    "Musli.Zero.Swiss.C46_corrected"
   ],
   "note": "False of the code for 8 and more entries (8 entries give len 9); proved exactly which number is returned. With the growth subtracted from the capacity the length is right, and nothing else changes (C46_corrected)."
  },
  {
   "property": "C47",
   "status": "partial",
   "theorems": [
    "Musli.Zero.Swiss.C47_full_statement_false",
    "Musli.Zero.Swiss.C47_bind_partial",
    "Musli.Zero.Swiss.C47_corrected"
   ],
   "note": "False of the code for types without an all-zero value, since empty buckets are validated too; proved for all other types. With validation of the buckets in use only, a stored table can be bound if and only if the stored entries are valid, for all types (C47_corrected)."
  },
  {
   "property": "C48",
   "status": "partial",
   "theorems": [
    "Musli.Zero.Phf.C48_sound",
    "Musli.Zero.Phf.C48_set_sound",
    "Musli.Zero.Phf.C48_small_partial",
    "Musli.Zero.Phf.C48_set_small_partial",
    "Musli.Zero.Phf.C48_full_statement_false",
    "Musli.Zero.Phf.C48_corrected",
    "Musli.Zero.Phf.C48_set_corrected",
    "Musli.Zero.Phf.C48_exact_partial",
    "Musli.Zero.Phf.C48_violated_by_order"
   ],
   "note": "False of the code for two reasons: store_raw applies the inverse of the permutation the lookup needs, so a map of three entries can lose all of them (C48_full_statement_false); and displacements are stored in the order of the sizes of the buckets but looked up by their numbers, so a map of six entries which are all in their places loses all of them (C48_violated_by_order). Proved for all sizes: no panic, lookups never fail and never return a wrong entry. For up to five entries C48_exact_partial says which are found. With the two corrections the full statement holds for all maps and sets (C48_corrected, C48_set_corrected)."
  },
  {
   "property": "C49",
   "status": "partial",
   "theorems": [
    "Musli.Zero.Phf.C49_duplicates_never_terminate",
    "Musli.Zero.Phf.C49_equal_hashes_never_terminate",
    "Musli.Zero.Phf.C49_perfect_partial",
    "Musli.Zero.Phf.C49_full_statement_false",
    "Musli.Zero.Phf.C49_small_partial"
   ],
   "note": "False of the code: a duplicate key makes the search run forever (the loop over random keys has no end), and so do keys with equal hashes under every random number. Proved to end for up to one entry (C49_small_partial), and for any number of entries if under one of the random numbers the third hashes of all keys have different remainders by their number (C49_perfect_partial)."
  },
  {
   "property": "C50",
   "status": "partial",
   "theorems": [
    "Musli.Zero.Phf.C50_phf_full_statement_false",
    "Musli.Zero.Phf.C50_phf_partial",
    "Musli.Zero.Swiss.C50_swiss_full_statement_false",
    "Musli.Zero.Swiss.C50_swiss_partial",
    "Musli.Zero.Swiss.C50_swiss_set_partial"
   ],
   "note": "False in two corners: a phf map without entries but with displacements divides by zero; a swiss mask within 16 of 2^64 overflows in debug builds. Proved for all other contents."
  },
  {
   "property": "C51",
   "status": "partial",
   "theorems": [
    "Musli.Zero.LayoutProps.C51_load_partial",
    "Musli.Zero.LayoutProps.C51_load_unaligned_partial",
    "Musli.Zero.LayoutProps.C51_load_slice_partial",
    "Musli.Zero.LayoutProps.C51_load_str",
    "Musli.Zero.LayoutProps.C51_violated_by_packed",
    "Musli.Zero.LayoutProps.C51_violated_by_ignored",
    "Musli.Zero.LayoutProps.C51_violated_by_nesting",
    "Musli.Zero.LayoutProps.C51_violated_by_wrapping",
    "Musli.Zero.LayoutProps.C51_violated_by_unaligned",
    "Musli.Zero.LayoutProps.C51_violated_by_offset"
   ],
   "note": "False for packed(N) structs with fields of a lesser alignment, structs with an ignored field of a greater alignment, aligned structs in packed ones (incl. Wrapping), load_at_unaligned of types with aligned fields, and offsets whose sum with the size overflows (panic in debug builds): C51_violated_by_*. Proved for all types without these (LoadOk); strings without restriction."
  },
  {
   "property": "C52",
   "status": "partial",
   "theorems": [
    "Musli.Zero.LayoutProps.C52_store_partial",
    "Musli.Zero.LayoutProps.C52_not_padded",
    "Musli.Zero.LayoutProps.C52_store_load_partial",
    "Musli.Zero.LayoutProps.C52_violated_by_packed",
    "Musli.Zero.LayoutProps.C52_violated_by_underflow",
    "Musli.Zero.LayoutProps.C52_violated_by_ignored"
   ],
   "note": "False for packed(N) structs with fields of a lesser alignment and structs with an ignored field of a greater alignment: C52_violated_by_*. Proved for all other types (StoreOk)."
  },
  {
   "property": "C53",
   "status": "partial",
   "theorems": [
    "Musli.Zero.OwnedProps.C53_contents_partial",
    "Musli.Zero.OwnedProps.C53_round_trip_partial",
    "Musli.Zero.OwnedProps.C53_total_partial",
    "Musli.Zero.OwnedProps.C53_total_slice_partial",
    "Musli.Zero.OwnedProps.C53_violated_by_slice"
   ],
   "note": "Proved for all histories with types for which storing and loading are right (C51, C52). A SliceMut panics although there is room, if it is shorter than the requested alignment: C53_violated_by_slice. For SliceMut C53_total_slice_partial says exactly which histories of calls do not panic."
  },
  {
   "property": "C54",
   "status": "partial",
   "theorems": [
    "Musli.Zero.OwnedProps.C54_safe_partial",
    "Musli.Zero.OwnedProps.C54_violated_by_clone"
   ],
   "note": "False: aligning the clone of an empty buffer with a pending alignment allocates zero bytes (C54_violated_by_clone). Proved for all histories which do not clone such a buffer, for the types of C52."
  },
  {
   "property": "C55",
   "status": "partial",
   "theorems": [
    "Musli.Zero.RefProps.C55_construct_partial",
    "Musli.Zero.RefProps.C55_read_partial",
    "Musli.Zero.RefProps.C55_to_endian_partial",
    "Musli.Zero.RefProps.C55_portable",
    "Musli.Zero.RefProps.C55_violated_by_usize"
   ],
   "note": "False for usize in the byte order which is not that of the platform: C55_violated_by_usize. Proved for all other size types, and for usize in the platform's order."
  },
  {
   "property": "C56",
   "status": "partial",
   "theorems": [
    "Musli.Zero.RefProps.C56_get",
    "Musli.Zero.RefProps.C56_split_at",
    "Musli.Zero.RefProps.C56_iter_partial",
    "Musli.Zero.RefProps.C56_violated_by_zero_sized",
    "Musli.Zero.RefProps.C56_load_partial"
   ],
   "note": "False: the iterator over a slice of zero-sized elements returns nothing (C56_violated_by_zero_sized). Loading is for the types of C51."
  },
  {
   "property": "C57",
   "status": "partial",
   "theorems": [
    "Musli.Zero.RefProps.C57_coerce_partial",
    "Musli.Zero.RefProps.C57_array_into_slice_partial",
    "Musli.Zero.RefProps.C57_violated_by_byte_order",
    "Musli.Zero.RefProps.C57_violated_by_array_into_slice",
    "Musli.Zero.RefProps.C57_which"
   ],
   "note": "False in the byte order which is not that of the platform: C57_violated_by_byte_order, C57_violated_by_array_into_slice. Proved for the platform's byte order."
  },
  {
   "property": "C58",
   "status": "partial",
   "theorems": [
    "Musli.Zero.EndianProps.C58_bytes_partial",
    "Musli.Zero.EndianProps.C58_typed_partial",
    "Musli.Zero.EndianProps.C58_round_trip_partial",
    "Musli.Zero.EndianProps.C58_native",
    "Musli.Zero.EndianProps.C58_portable_partial",
    "Musli.Zero.EndianProps.C58_transfer_partial",
    "Musli.Zero.EndianProps.C58_exchange_partial",
    "Musli.Zero.EndianProps.C58_violated_by_field_order"
   ],
   "note": "False for enums in which variants that are swapped for each other have their fields in different orders: C58_violated_by_field_order. Proved for all other types. Floats are their bits."
  },
  {
   "property": "C59",
   "status": "proved",
   "theorems": [
    "Musli.Zero.Discriminant.C59_discriminants",
    "Musli.Zero.Discriminant.C59_cross_compilation"
   ],
   "note": "For isize the machine which compiles must not have smaller pointers than the target (C59_cross_compilation). That syn prints an expression such that it parses as the same tree is assumed; repr(usize) is not supported by the derive macro."
  },
  {
   "property": "C60",
   "status": "proved",
   "theorems": [
    "Musli.Zero.Trie.C60_insert",
    "Musli.Zero.Trie.C60_iter",
    "Musli.Zero.Trie.C60_total",
    "Musli.Zero.Trie.C60_corrected_insert"
   ],
   "note": "The nodes are trees: that storing and loading them is faithful is C51 and C52. That offsets and lengths fit the types of the flavor is assumed."
  },
  {
   "property": "C61",
   "status": "partial",
   "theorems": [
    "Musli.Zero.Trie.C61_get_partial",
    "Musli.Zero.Trie.C61_get_sorted_partial",
    "Musli.Zero.Trie.C61_violated_by_order",
    "Musli.Zero.Trie.C61_violated_by_absent_key",
    "Musli.Zero.Trie.C61_corrected",
    "Musli.Zero.Trie.C61_corrected_found"
   ],
   "note": "Proved for strings which were inserted, if the insertions were in order (sorted, or such that what a key has in common with an earlier greater one is also a prefix of an earlier one which is not greater). C61_violated_by_order: after abd, abc, abe looking up abc returns None. C61_violated_by_absent_key: after ab, abc looking up ac returns the values of abc. With two corrections of insert and get (C61_corrected) it holds for any key and any order."
  },
  {
   "property": "C62",
   "status": "partial",
   "theorems": [
    "Musli.Zero.Trie.C62_iter_in_partial",
    "Musli.Zero.Trie.C62_iter_in_sorted_partial",
    "Musli.Zero.Trie.C62_violated_by_order",
    "Musli.Zero.Trie.C62_violated_by_absent_prefix",
    "Musli.Zero.Trie.C62_corrected"
   ],
   "note": "Proved for prefixes of strings which were inserted, under the same condition on the order. C62_violated_by_order: after working, work iterating from workin yields nothing. C62_violated_by_absent_prefix: after ab, abc iterating from ac yields a key bc. With corrections of insert and of the search for the prefix (C62_corrected) it holds for any prefix and any order."
  },
  {
   "property": "C63",
   "status": "partial",
   "theorems": [
    "Musli.C63_value_roundtrip_partial",
    "Musli.C63_violated_some_unit",
    "Musli.C63_violated_vec_unit",
    "Musli.C63_violated_tuple_unit",
    "Musli.C63_full_statement_false",
    "Musli.C63_corrected",
    "Musli.C63_corrected_same"
   ],
   "note": "Proved for types in which () is neither the payload of an option nor an element of a sequence or tuple. C63_violated_*: encode_empty writes nothing, so that Some(()) cannot be decoded, vec![(), ()] becomes an empty vector and ((), 5) cannot be decoded. An encoder that writes Value::Unit in encode_empty, and is otherwise the code, satisfies the full statement (C63_corrected, C63_corrected_same)."
  },
  {
   "property": "C64",
   "status": "proved",
   "theorems": [
    "Musli.C64_integers_across_types",
    "Musli.C64_string_keys",
    "Musli.C64_string_keys_only_digits",
    "Musli.C64_strings_are_not_integers"
   ],
   "note": "Floating point numbers read as integers saturate (modelled, not part of the statement)."
  },
  {
   "property": "C65",
   "status": "partial",
   "theorems": [
    "Musli.C65_decode_identity",
    "Musli.C65_encode_identity_partial",
    "Musli.C65_violated",
    "Musli.C65_full_statement_false"
   ],
   "note": "Decoding: proved. Encoding: proved for values without Unit in a sequence or option. C65_violated: a sequence loses its units and Some(unit) becomes unit."
  },
  {
   "property": "C66",
   "status": "partial",
   "theorems": [
    "Musli.C66_buffered_partial",
    "Musli.C66_buffered_default_options_partial",
    "Musli.C66_violated_packed_fixed",
    "Musli.C66_full_statement_false"
   ],
   "note": "Proved for types without packed structs for all options, and for all types with the default options. C66_violated_packed_fixed: the buffer is read with BUFFER_OPTIONS instead of the options of the encoding, so that a packed struct with fixed-width integers is decoded as a different value without an error."
  },
  {
   "property": "C67",
   "status": "partial",
   "theorems": [
    "Musli.C67_value_through_descriptive_partial",
    "Musli.C67_width_not_observable",
    "Musli.C67_violated_usize",
    "Musli.C67_full_statement_false"
   ],
   "note": "Proved up to usize/isize becoming u64/i64 (C67_violated_usize), which no decoding can observe (C67_width_not_observable)."
  },
  {
   "property": "C68",
   "status": "partial",
   "theorems": [
    "Musli.C68_transcode_partial",
    "Musli.C68_transcode_storage_partial",
    "Musli.C68_violated_storage_bytes",
    "Musli.C68_violated_storage_packed",
    "Musli.C68_violated_unit",
    "Musli.C68_full_statement_false"
   ],
   "note": "Wire and descriptive: proved for types in which () is neither the payload of an option nor an element of a sequence (C68_violated_unit). Storage: also without byte arrays of a fixed size (C68_violated_storage_bytes) and packed structs (C68_violated_storage_packed), which get a length. Not for unknown or skipped values that contain enums with skip_encoding_if on fields of variants (C17)."
  },
  {
   "property": "C69",
   "status": "proved",
   "theorems": [
    "Musli.Json.C69_document_as_value",
    "Musli.Json.C69_values_differ",
    "Musli.Json.C69_one_document"
   ],
   "note": "Numbers with a fraction or exponent are floats or integers depending on parse_float and are not part of the statement; the float conversion is a parameter."
  },
  {
   "property": "C70",
   "status": "partial",
   "theorems": [
    "Musli.Json.C70_any_text_partial",
    "Musli.Json.C70_round_trip_partial",
    "Musli.Json.C70_never_partial",
    "Musli.Json.C70_violated_option",
    "Musli.Json.C70_violated_char_bytes_enum",
    "Musli.Json.C70_full_statement_false"
   ],
   "note": "Proved for types without floats, char, bytes, options, results, packed structs and enums with data. C70_never_partial: none of the latter (except floats) can be decoded through a buffer from any document, because JSON's decode_any never produces Value::Option, Char, Bytes or Variant, which the value decoder insists on. So an internally tagged enum with an optional field cannot be decoded from JSON (C70_violated_option)."
  },
  {
   "property": "C71",
   "status": "partial",
   "theorems": [
    "Musli.C71_round_trip_partial",
    "Musli.C71_round_trip_wire_descriptive",
    "Musli.C71_prefix_free_partial",
    "Musli.C71_round_trip_json",
    "Musli.C71_violated_order",
    "Musli.C71_full_statement_false"
   ],
   "note": "Holds in wire, descriptive and JSON, and in storage and packed unless numbers are used as names with fixed width options and a byte order which is not that of the machine: the tag and the variant are written by `insert_entry` in native order, and read in the configured order (C71_violated_order). Not for unknown or skipped values that contain enums with skip_encoding_if on fields of variants (C17)."
  },
  {
   "property": "C72",
   "status": "proved",
   "theorems": [
    "Musli.C72_documents",
    "Musli.C72_documents_json"
   ],
   "note": "Unknown values with usize and fixed lengths cannot be skipped in wire (C13); this is a hypothesis. Not for unknown or skipped values that contain enums with skip_encoding_if on fields of variants (C17)."
  },
  {
   "property": "C73",
   "status": "partial",
   "theorems": [
    "Musli.C73_round_trip_descriptive_partial",
    "Musli.C73_round_trip_json_partial",
    "Musli.C73_violated_names",
    "Musli.C73_violated_clash",
    "Musli.C73_violated_map",
    "Musli.C73_violated_encode",
    "Musli.C73_violated_option",
    "Musli.C73_full_statement_false",
    "Musli.C73_json_full_statement_false"
   ],
   "note": "Proved for bodies that are structs whose field names are of the same kind as the tag and differ from it. False otherwise: a string tag with fields named by numbers, the default in binary mode, cannot be decoded (C73_violated_names); a transparent map gets the tag as an entry (C73_violated_map), or cannot be encoded (C73_violated_encode); in JSON options, chars, bytes and nested enums cannot be decoded (C70, C73_violated_option)."
  },
  {
   "property": "C74",
   "status": "proved",
   "theorems": [
    "Musli.C74_documents_descriptive",
    "Musli.C74_documents_json"
   ],
   "note": "Known fields are without packed structs in descriptive (C66), and in JSON of types that can be buffered (C70). Not for unknown or skipped values that contain enums with skip_encoding_if on fields of variants (C17)."
  },
  {
   "property": "C75",
   "status": "partial",
   "theorems": [
    "Musli.C75_decode_partial",
    "Musli.C75_violated_sequence",
    "Musli.C75_decode_json_partial",
    "Musli.C75_no_clone_last_only",
    "Musli.C75_violated_json_sequence",
    "Musli.C75_violated",
    "Musli.C75_full_statement_false",
    "Musli.C75_corrected",
    "Musli.C75_corrected_roundtrip",
    "Musli.C75_corrected_sequence",
    "Musli.C75_corrected_json"
   ],
   "note": "The value is right but unless it is the last variant nothing is consumed: the variant is decoded from a clone and the decoder is not advanced. A sequence is then decoded as copies of its first element, and in JSON never ends. With a parser which cannot be cloned only the last variant is ever decoded. With a correction, that the clone is kept after success, everything holds in all formats (C75_corrected, C75_corrected_sequence, C75_corrected_json)."
  },
  {
   "property": "C76",
   "status": "proved",
   "theorems": [
    "Musli.C76_known",
    "Musli.C76_unknown",
    "Musli.C76_unknown_storage",
    "Musli.C76_unit",
    "Musli.C76_json",
    "Musli.C76_unit_json"
   ],
   "note": "Unknown bodies in wire must be skippable, see C13. Not for unknown or skipped values that contain enums with skip_encoding_if on fields of variants (C17)."
  },
  {
   "property": "C77",
   "status": "proved",
   "theorems": [
    "Musli.Zero.Sip.C77_siphash",
    "Musli.Zero.Sip.C77_chunks"
   ],
   "note": "The counter of bytes wraps as in release builds; in debug builds more than 2^bits bytes in one hash are a panic."
  },
  {
   "property": "C78",
   "status": "partial",
   "theorems": [
    "Musli.Zero.Portable.C78_hash_partial",
    "Musli.Zero.Portable.C78_map_partial",
    "Musli.Zero.Portable.C78_violated_set",
    "Musli.Zero.Portable.C78_violated_numbers"
   ],
   "note": "Holds for maps whose keys are hashed as bytes (strings). `SetRef` has its key in native order (C78_violated_set), and numbers are hashed in native order (C78_violated_numbers)."
  },
  {
   "property": "C79",
   "status": "partial",
   "theorems": [
    "Musli.Zero.SwapAt.C79_corrected",
    "Musli.Zero.SwapAt.C79_corrected_same",
    "Musli.Zero.SwapAt.C79_swap_partial",
    "Musli.Zero.SwapAt.C79_twice_partial",
    "Musli.Zero.SwapAt.C79_violated_overflow",
    "Musli.Zero.SwapAt.C79_violated_same"
   ],
   "note": "Without overflow checks a reference near the end of the address space passes the bounds check, and memory outside of the buffer is accessed (C79_violated_overflow). Equal references are not checked (C79_violated_same). With a checked sum and references checked even if they are equal all of it holds (C79_corrected, C79_corrected_same)."
  },
  {
   "property": "C80",
   "status": "partial",
   "theorems": [
    "Musli.Access.C80_guards_partial",
    "Musli.Access.C80_violated_clone",
    "Musli.Access.C80_corrected",
    "Musli.Access.C80_corrected_unchanged",
    "Musli.Access.C80_corrected_aborts"
   ],
   "note": "The clone of a guard does not check for overflow: with 2^bits forgotten clones the counter is zero again (C80_violated_clone); the theorem is for shorter histories. With the check of overflow also in the clone it holds for all histories (C80_corrected, C80_corrected_unchanged, C80_corrected_aborts)."
  },
  {
   "property": "C81",
   "status": "partial",
   "theorems": [
    "Musli.Trace.C81_path_partial",
    "Musli.Trace.C81_capped_partial",
    "Musli.Trace.C81_balanced",
    "Musli.Trace.C81_violated_key",
    "Musli.Trace.C81_violated_clear",
    "Musli.Trace.C81_violated_room"
   ],
   "note": "Exact without failures of allocations. With failures, false for keys which cannot be formatted (C81_violated_key), contexts which are reused (C81_violated_clear), and if there is room again (C81_violated_room)."
  },
  {
   "property": "C82",
   "status": "partial",
   "theorems": [
    "Musli.Trace.C82_result_partial",
    "Musli.Trace.C82_violated_untagged",
    "Musli.Trace.C82_violated_path"
   ],
   "note": "False for decoders which recover from errors, which untagged enums do: their failed attempts stay in the report, in `result` and in the path (C82_violated_untagged, C82_violated_path)."
  },
  {
   "property": "C83",
   "status": "partial",
   "theorems": [
    "Musli.Dec2Flt.C83_f64_correctly_rounded_partial",
    "Musli.Dec2Flt.C83_f32_correctly_rounded_partial",
    "Musli.Dec2Flt.C83_result_unique",
    "Musli.Dec2Flt.C83_f64_exact",
    "Musli.Dec2Flt.C83_f64_monotone",
    "Musli.Dec2Flt.C83_violated"
   ],
   "note": "Proved for all literals with an exponent below 655360 or at most 65000 digits. Otherwise false: the exponent is not read to its end (C83_violated). Operations of the hardware (multiplication, division, conversion) are assumed to be those of IEEE 754."
  },
  {
   "property": "C84",
   "status": "proved",
   "theorems": [
    "Musli.Dec2Flt.C84_words",
    "Musli.Dec2Flt.C84_accepted"
   ],
   "note": ""
  },
  {
   "property": "C85",
   "status": "proved",
   "theorems": [
    "Musli.Dec2Flt.C85_never_panics",
    "Musli.Dec2Flt.C85_length"
   ],
   "note": "Lengths are not bounded in the model; in the code the number of digits after the dot is converted to i32."
  },
  {
   "property": "C86",
   "status": "partial",
   "theorems": [
    "Musli.Dec2Flt.C86_json_float_partial",
    "Musli.Dec2Flt.C86_violated",
    "Musli.Dec2Flt.C86_violated_field",
    "Musli.Dec2Flt.C86_corrected",
    "Musli.Dec2Flt.C86_corrected_field",
    "Musli.Dec2Flt.C86_corrected_extends",
    "Musli.Dec2Flt.C86_corrected_accepted"
   ],
   "note": "Holds without whitespace in front. With whitespace it is an error, for example after the colon in `{\"a\": 1.5}` (C86_violated, C86_violated_field). With whitespace skipped before a float all of it holds (C86_corrected, C86_corrected_field, C86_corrected_accepted), and whatever is read now is read as before (C86_corrected_extends)."
  },
  {
   "property": "C87",
   "status": "partial",
   "theorems": [
    "Musli.C87_wire_complete",
    "Musli.C87_descriptive_complete",
    "Musli.C87_wire_checked_partial",
    "Musli.C87_descriptive_checked_partial",
    "Musli.C87_narrow_partial",
    "Musli.C87_narrow_no_panic_partial",
    "Musli.C87_violated_panic",
    "Musli.C87_violated_release",
    "Musli.C87_violated_not_items"
   ],
   "note": "Complete values are skipped exactly in both builds; with overflow checks success implies a complete value; with lengths of at most 32 bits both directions hold and nothing panics. Otherwise false: the additions and the multiplication by two of lengths from the input overflow, which panics in one kind of build, and in the other makes skipping succeed in the middle of a value (C87_violated_panic, C87_violated_release, C87_violated_not_items)."
  },
  {
   "property": "C88",
   "status": "partial",
   "theorems": [
    "Musli.Sys.C88_corrected",
    "Musli.Sys.C88_partial",
    "Musli.Sys.C88_violated_clear"
   ],
   "note": "Holds for the code as it is if elements are Copy, or have a positive size and destructors do not panic. Otherwise false: after a destructor has panicked in `clear` the vector still has the dropped values (C88_violated_clear). With two corrections it holds in general (C88_corrected)."
  },
  {
   "property": "C89",
   "status": "partial",
   "theorems": [
    "Musli.Sys.C89_corrected",
    "Musli.Sys.C89_partial",
    "Musli.Sys.C89_violated_zero_sized",
    "Musli.Sys.C89_violated_box",
    "Musli.Sys.C89_violated_clear"
   ],
   "note": "Holds for the code as it is for elements of positive size whose destructors do not panic. Otherwise false: values of size zero are dropped when they are pushed or boxed and again later (C89_violated_zero_sized, C89_violated_box), and `clear` (C89_violated_clear). With two corrections it holds in general (C89_corrected)."
  },
  {
   "property": "C90",
   "status": "proved",
   "theorems": [
    "Musli.Sys.C90_corrected",
    "Musli.Sys.C90_memory",
    "Musli.Sys.C90_layout",
    "Musli.Sys.C90_contents"
   ],
   "note": "C90_memory and C90_layout are about the code as it is, whatever destructors do; C90_contents and C90_corrected say more of the contents, where the defects of C88/C89 cannot show or are corrected."
  },
  {
   "property": "C91",
   "status": "proved",
   "theorems": [
    "Musli.Rename.C91_words",
    "Musli.Rename.C91_words_sound",
    "Musli.Rename.C91_precedence",
    "Musli.Rename.C91_default",
    "Musli.Rename.C91_values"
   ],
   "note": ""
  },
  {
   "property": "C92",
   "status": "partial",
   "theorems": [
    "Musli.Rename.C92_collision_iff",
    "Musli.Rename.C92_fields_partial",
    "Musli.Rename.C92_variants_partial",
    "Musli.Rename.C92_index",
    "Musli.Rename.C92_violated",
    "Musli.Rename.C92_full_statement_false",
    "Musli.Rename.C92_violated_roundtrip"
   ],
   "note": "Holds for conventional identifiers (C92_fields_partial, C92_variants_partial); exactly which ASCII identifiers collide is C92_collision_iff. In general false: `kind` and `kind_` (C92_violated), the derive accepts them and what it encodes cannot be decoded (C92_violated_roundtrip)."
  },
  {
   "property": "C93",
   "status": "partial",
   "theorems": [
    "Musli.Std.C93_roundtrip_partial",
    "Musli.Std.C93_violated_path",
    "Musli.Std.C93_platforms",
    "Musli.Std.C93_violated_flow",
    "Musli.Std.C93_violated_exhausted",
    "Musli.Std.C93_violated_rangeFull",
    "Musli.Std.C93_violated_path_order",
    "Musli.Std.C93_full_statement_false"
   ],
   "note": "Holds for all types and formats but those where the code is wrong: paths in wire and descriptive (C93_violated_path: written as bytes, read as a sequence), paths in storage with a foreign fixed byte order (C93_violated_path_order), RangeFull where values are copied bitwise (C93_violated_rangeFull), exhausted inclusive ranges (C93_violated_exhausted), flow information in the text mode (C93_violated_flow)."
  },
  {
   "property": "C94",
   "status": "partial",
   "theorems": [
    "Musli.Mem.C94_decode_partial",
    "Musli.Mem.C94_violated_atomicBool",
    "Musli.Mem.C94_full_statement_false",
    "Musli.Mem.C94_violated_vec",
    "Musli.Mem.C94_encode",
    "Musli.Mem.C94_fields",
    "Musli.Mem.C94_roundtrip",
    "Musli.Mem.C94_size",
    "Musli.Mem.C94_attributes_encode",
    "Musli.Mem.C94_attributes_decode"
   ],
   "note": "Encoding and layout hold fully (C94_encode, C94_fields). Decoding holds of all types without AtomicBool and of none with it (C94_violated_atomicBool): AtomicBool has IS_BITWISE_DECODE = true, so Vec<AtomicBool> from untrusted bytes yields a bool which is neither 0 nor 1 (C94_violated_vec)."
  },
  {
   "property": "C95",
   "status": "partial",
   "theorems": [
    "Musli.Mem.C95_slice",
    "Musli.Mem.C95_slice_memory",
    "Musli.Mem.C95_collection_partial",
    "Musli.Mem.C95_bounded",
    "Musli.Mem.C95_violated_value",
    "Musli.Mem.C95_value_unbounded",
    "Musli.Mem.C95_violated_empty"
   ],
   "note": "Holds for slices of bitwise types (C95_slice, C95_slice_memory) and, where elements take at least one byte, for other collections (C95_collection_partial, C95_bounded). False for `Value`, which allocates for the claimed length (C95_violated_value, C95_value_unbounded), and where elements take no byte: ten bytes yield 2^64-1 elements (C95_violated_empty)."
  },
  {
   "property": "C96",
   "status": "proved",
   "theorems": [
    "Musli.C96_serde_roundtrip",
    "Musli.C96_serde_packed_roundtrip",
    "Musli.C96_serde_unambiguous"
   ],
   "note": "Any options, including those of the bitwise fast path, which the bridge never takes. In packed an option may only come last, since it has no marker there. What serde's own derives call is taken from serde's documentation."
  },
  {
   "property": "C97",
   "status": "partial",
   "theorems": [
    "Musli.C97_same_bytes_partial",
    "Musli.C97_serde_reads_musli_partial",
    "Musli.C97_musli_reads_serde_partial",
    "Musli.C97_musli_accepts_what_serde_accepts_partial",
    "Musli.C97_violated_usize",
    "Musli.C97_violated_unit_struct",
    "Musli.C97_violated_unit_enum",
    "Musli.C97_violated_fast_path",
    "Musli.C97_violated_missing_option",
    "Musli.C97_violated_longer_array",
    "Musli.C97_full_statement_false"
   ],
   "note": "Holds where the fast path is off, of types without usize, isize, unit structs and unit variants (C97_same_bytes_partial, \u2026). False for these (C97_violated_usize, _unit_struct, _unit_enum, _fast_path); serde also accepts missing options and, in wire, longer arrays (C97_violated_missing_option, _longer_array). Not for unknown or skipped values that contain enums with skip_encoding_if on fields of variants (C17)."
  },
  {
   "property": "C98",
   "status": "partial",
   "theorems": [
    "Musli.C98_wire_reordered_partial",
    "Musli.C98_descriptive_reordered",
    "Musli.C98_wire_entries_partial",
    "Musli.C98_descriptive_entries",
    "Musli.C98_violated_fixed_usize",
    "Musli.C98_duplicate_rejected"
   ],
   "note": "Descriptive and the rejection of duplicates hold fully. Wire: without unknown usize values in a fixed length width (C98_violated_fixed_usize), as C13 and C14. Not for unknown or skipped values that contain enums with skip_encoding_if on fields of variants (C17)."
  },
  {
   "property": "C99",
   "status": "partial",
   "theorems": [
    "Musli.C99_wire_partial",
    "Musli.C99_descriptive",
    "Musli.C99_storage_partial",
    "Musli.C99_value_partial",
    "Musli.C99_json_partial",
    "Musli.C99_violated_storage",
    "Musli.C99_violated_storage_beyond",
    "Musli.C99_violated_value",
    "Musli.C99_full_statement_false"
   ],
   "note": "Descriptive holds fully. Wire: keys and values that can be skipped, see C13. Storage: single entries only, as decode_remaining_entries works on a copy of the count (C99_violated_storage, _beyond). Value: nothing after the remaining entries (C99_violated_value). JSON: the remaining entries asked for at most once, the second time is an error."
  },
  {
   "property": "C100",
   "status": "proved",
   "theorems": [
    "Musli.C100_map",
    "Musli.C100_map_document",
    "Musli.C100_map_accepts",
    "Musli.C100_map_value",
    "Musli.C100_set",
    "Musli.C100_set_roundtrip",
    "Musli.C100_heap",
    "Musli.C100_deque_bytes",
    "Musli.C100_deque",
    "Musli.C100_map_json"
   ],
   "note": "Any implementation of maps and sets that satisfies the contract of the standard library (Spec/Collections.lean), of which there are instances for every iteration order. For types supported by the options (C10\u2013C12, C16). Eq of keys is equality of values in the model."
  },
  {
   "property": "C101",
   "status": "proved",
   "theorems": [
    "Musli.Io.C101_success",
    "Musli.Io.C101_failure",
    "Musli.Io.C101_no_spurious_failure",
    "Musli.Io.C101_independent_of_writes",
    "Musli.Io.C101_buffered",
    "Musli.Io.C101_buffered_success_loses"
   ],
   "note": "write_all and BufWriter of the standard library are modelled after their documentation. C101_buffered_success_loses shows that with a BufWriter passed by value, success can be returned although data is lost."
  },
  {
   "property": "C102",
   "status": "proved",
   "theorems": [
    "Musli.C102_succeeds_iff",
    "Musli.C102_error_is_overflow",
    "Musli.C102_default_roundtrip",
    "Musli.C102_default_limit"
   ],
   "note": "The writer does not fail (see C24, C101 for writers which do), no memory is exhausted. A packed struct inside of wire or descriptive also needs that its contents are shorter than the limit; this refers to the encoding of the contents."
  },
  {
   "property": "C103",
   "status": "partial",
   "theorems": [
    "Musli.C103_same_everywhere_partial",
    "Musli.C103_wire_descriptive_partial",
    "Musli.C103_violated_storage",
    "Musli.C103_violated_wire_pack",
    "Musli.C103_full_statement_false"
   ],
   "note": "Proved unless integers, floats and lengths all have fixed width (so for the default options), and for wire and descriptive with any options if there are no packed structs. False otherwise: is_native_fixed ignores the byte order, so with fixed().byte_order(Big) slices and packed structs are copied in the order of the machine (C103_violated_storage, C103_violated_wire_pack). usize has 64 bits in the model."
  },
  {
   "property": "C104",
   "status": "proved",
   "theorems": [
    "Musli.C104_wire",
    "Musli.C104_descriptive",
    "Musli.C104_json",
    "Musli.C104_unknown_variant"
   ],
   "note": "Spec/Upgrade.lean is the relation between what was written and what is read. With lengths of fixed width in wire it is false where an unknown field contains a usize, see C13. Removing trailing elements of tuples is not part of the relation. JSON: the reader's type satisfies jsonOk (null is unambiguous)."
  },
  {
   "property": "C105",
   "status": "partial",
   "theorems": [
    "Musli.C105_same_bytes_partial",
    "Musli.C105_read_back_partial",
    "Musli.C105_json",
    "Musli.C105_json_text",
    "Musli.C105_descriptive_one_value",
    "Musli.C105_wire_one_value_partial",
    "Musli.C105_slice",
    "Musli.C105_slices",
    "Musli.C105_unknown_length",
    "Musli.C105_violated_wrong_number",
    "Musli.C105_violated_bitwise",
    "Musli.C105_full_statement_false"
   ],
   "note": "The full statement is false: with options under which values are copied bitwise, insert_entry/push of an array writes no length while the derived implementation writes one (C105_violated_bitwise); and an announced number is never compared with what is written (C105_violated_wrong_number). Wire: one value except for usize with fixed lengths (C13). Everything else is proved: Says (Spec/Calls.lean) relates calls to values. Not for unknown or skipped values that contain enums with skip_encoding_if on fields of variants (C17)."
  },
  {
   "property": "C106",
   "status": "partial",
   "theorems": [
    "Musli.C106_binary_partial",
    "Musli.C106_json_skip_partial",
    "Musli.C106_violated_json",
    "Musli.C106_violated_json_value",
    "Musli.C106_violated_descriptive_value"
   ],
   "note": "Proved for storage, packed, wire and descriptive decoding into every type (C106_binary_partial). The full statement is false: skip_any of JSON is recursive, so nested brackets in any unknown field or () overflow every stack (C106_violated_json; bounded by the number of brackets, C106_json_skip_partial); decoding a Value recurses with the document in JSON and descriptive (C106_violated_json_value, C106_violated_descriptive_value)."
  },
  {
   "property": "C107",
   "status": "partial",
   "theorems": [
    "Musli.C107_binary_str_partial",
    "Musli.C107_binary_bytes_partial",
    "Musli.C107_binary_part_partial",
    "Musli.C107_violated_slice",
    "Musli.C107_slice_partial",
    "Musli.Json.C107_json_str_partial",
    "Musli.Json.C107_json_agree_partial",
    "Musli.Json.C107_json_encoded_partial",
    "Musli.Json.C107_violated_json_str",
    "Musli.Json.C107_violated_json_bytes",
    "Musli.Json.C107_json_bytes_partial"
   ],
   "note": "Proved for storage, packed, wire and descriptive (C107_binary_str_partial, _bytes_partial, _part_partial), and for Cow<str> and decode_unsized in JSON (C107_json_agree_partial). The full statement is false: in JSON &str decodes exactly from literals without escapes (C107_json_str_partial), so not what a string with a quote encodes to (C107_violated_json_str); &[u8] never decodes from JSON (C107_violated_json_bytes), nor from what it itself encodes to in wire and descriptive, which is a sequence (C107_violated_slice)."
  },
  {
   "property": "C108",
   "status": "partial",
   "theorems": [
    "Musli.Attr.C108_resolution_partial",
    "Musli.Attr.C108_items",
    "Musli.Attr.C108_errors_partial",
    "Musli.Attr.C108_sound",
    "Musli.Attr.C108_implemented_partial",
    "Musli.Attr.C108_isolated",
    "Musli.Attr.C108_violated_custom",
    "Musli.Attr.C108_violated_mixed",
    "Musli.Attr.C108_violated_twice",
    "Musli.Attr.C108_violated_default"
   ],
   "note": "Proved for types with at most one custom mode (C108_resolution_partial, _implemented_partial, _errors_partial), and in general C108_isolated, C108_sound, C108_items. The full statement is false: modes are kept by kind, and all custom modes have the same one, so of two custom modes only the last is implemented (C108_violated_custom) with the attributes of both (C108_violated_mixed), and the same attribute for both is an error (C108_violated_twice); without a mode there are implementations for Binary and Text only, not for all (C108_violated_default)."
  },
  {
   "property": "C109",
   "status": "partial",
   "theorems": [
    "Musli.Rename.C109_rule",
    "Musli.Rename.C109_rule_variants",
    "Musli.Rename.C109_type",
    "Musli.Rename.C109_names",
    "Musli.Rename.C109_typed_iff",
    "Musli.Rename.C109_typed_partial",
    "Musli.Rename.C109_violated_bytes",
    "Musli.Rename.C109_violated_tuple",
    "Musli.Rename.C109_violated_infer"
   ],
   "note": "Proved: the rule (C109_rule, C109_rule_variants), the type and how it is decoded (C109_type), the names (C109_names), and exactly when a name made up by the derive has the type of names (C109_typed_iff, C109_typed_partial). The full statement is false: with name(type = [u8]) the names made up are string literals (C109_violated_bytes), and tuples with a rule for text have indexes where names are str (C109_violated_tuple); such derives do not compile. The type is never inferred from the names given, although documented (C109_violated_infer)."
  },
  {
   "property": "C110",
   "status": "partial",
   "theorems": [
    "Musli.C110_float_as_integer_partial",
    "Musli.C110_exact_partial",
    "Musli.C110_float",
    "Musli.C110_violated_integer_as_float",
    "Musli.C110_violated",
    "Musli.C110_full_statement_false"
   ],
   "note": "Proved for all floats and integer types: the result is the float without its fraction, clamped to the range, 0 for NaN (C110_float_as_integer_partial), hence exact where the float is an integer in range (C110_exact_partial); floats are read bit by bit and only from floats of the type (C110_float). The full statement is false: 1.5, NaN, infinity and -1.0 are read as u8 without an error (C110_violated); integers are never read as floats (C110_violated_integer_as_float)."
  },
  {
   "property": "C111",
   "status": "partial",
   "theorems": [
    "Musli.Zero.RefProps.C111_construct",
    "Musli.Zero.RefProps.C111_read",
    "Musli.Zero.RefProps.C111_portable",
    "Musli.Zero.RefProps.C111_get_partial",
    "Musli.Zero.RefProps.C111_violated_get",
    "Musli.Zero.RefProps.C111_split_at",
    "Musli.Zero.RefProps.C111_violated_split",
    "Musli.Zero.RefProps.C111_full_statement_false",
    "Musli.Zero.RefProps.C111_load"
   ],
   "note": "Proved: construction, accessors, bytes, portability and load for all platforms and byte orders (C111_construct, C111_read, C111_portable, C111_load), exactly when split_at panics and what it returns otherwise (C111_split_at), elements if the slice is in the byte order of the platform (C111_get_partial). The full statement is false: get and get_unchecked return a Ref<T, E, usize>, whose offset is swapped when made and not when read (C111_violated_get, as in C55); a slice whose elements lie beyond the range of the type of offsets cannot be split there (C111_violated_split)."
  },
  {
   "property": "C112",
   "status": "partial",
   "theorems": [
    "Musli.C112_any_partial",
    "Musli.C112_types_partial",
    "Musli.C112_violated_variants",
    "Musli.C112_full_statement_false",
    "Musli.C112_json_shows_text",
    "Musli.C112_json_any",
    "Musli.C112_json_kept_partial"
   ],
   "note": "Descriptive: proved for everything without variants of enums (C112_any_partial, C112_types_partial). With a variant anywhere it always fails: the AnyVisitor of the serde bridge has no visit_variant (C112_violated_variants, C112_full_statement_false). JSON: every text is shown as its document (C112_json_shows_text, C112_json_any), and data without floats, characters, bytes, options and other keys than strings as it is, with variants (C112_json_kept_partial); JSON has no way to tell these apart. Modelled with a visitor which accepts every call and reads everything, as serde's Content does."
  },
  {
   "property": "C113",
   "status": "partial",
   "theorems": [
    "Musli.C113_model_w64",
    "Musli.C113_usize_partial",
    "Musli.C113_usize_too_large_partial",
    "Musli.C113_violated_usize",
    "Musli.C113_isize_descriptive_partial",
    "Musli.C113_isize_descriptive_too_large_partial",
    "Musli.C113_violated_isize_descriptive",
    "Musli.C113_isize_partial",
    "Musli.C113_isize_same_width_partial",
    "Musli.C113_violated_isize_wider",
    "Musli.C113_violated_isize_narrower",
    "Musli.C113_full_statement_false"
   ],
   "note": "Proved: every usize which exists on the reading machine (C113_usize_partial), every isize in descriptive (C113_isize_descriptive_partial), every nonnegative one in storage and wire (C113_isize_partial), all with equal widths (C113_isize_same_width_partial); errors for numbers which do not exist there if the width is fixed or they have more than 35 bits. False of the code otherwise: variable-length numbers of 33 to 35 bits lose their upper bits (C113_violated_usize, C113_violated_isize_descriptive); negative isize in storage and wire become 2^32+v on a wider machine and unreadable on a narrower one (C113_violated_isize_wider, C113_violated_isize_narrower). C113_model_w64 ties the model to the 64 bit one. Bitwise copies (all options fixed) are C103/C105."
  },
  {
   "property": "C114",
   "status": "partial",
   "theorems": [
    "Musli.C114_model_w64",
    "Musli.C114_round_trip",
    "Musli.C114_same_bytes",
    "Musli.C114_documents_partial",
    "Musli.C114_violated_isize",
    "Musli.C114_violated_length",
    "Musli.C114_violated_copy",
    "Musli.C114_violated_copy_all",
    "Musli.C114_copy_w64",
    "Musli.C114_full_statement_false"
   ],
   "note": "Proved for all types without isize and all values which exist with 32 bits, whichever machine writes and reads (C114_documents_partial); everything round-trips between machines of the same width, also 32 bits with isize (C114_round_trip); what 32 bits write 64 bits write too, the same bytes in storage and wire (C114_same_bytes). False of the code otherwise: isize (C114_violated_isize), lists of 2^32 elements and more are cut off silently on 32 bits (C114_violated_length), copies of slices carry a length of the machine's own width (C114_violated_copy, _copy_all). C114_model_w64 and C114_copy_w64 tie the model to the 64 bit one."
  },
  {
   "property": "C115",
   "status": "partial",
   "theorems": [
    "Musli.PackedField.C115_array_round_trip_partial",
    "Musli.PackedField.C115_tuple_round_trip_partial",
    "Musli.PackedField.C115_shorter_array",
    "Musli.PackedField.C115_shorter_array_storage",
    "Musli.PackedField.C115_vec_like_array",
    "Musli.PackedField.C115_deque_like_array",
    "Musli.PackedField.C115_encode_slice_is_push",
    "Musli.PackedField.C115_tuple_like_struct_partial",
    "Musli.PackedField.C115_tuple_like_struct_read_partial",
    "Musli.PackedField.C115_value_array_partial",
    "Musli.PackedField.C115_value_tuple_partial",
    "Musli.PackedField.C115_json_is_array",
    "Musli.PackedField.C115_json_reads",
    "Musli.PackedField.C115_json_round_trip_partial",
    "Musli.PackedField.C115_json_tuple",
    "Musli.PackedField.C115_violated_options",
    "Musli.PackedField.C115_violated_struct",
    "Musli.PackedField.C115_full_statement_false"
   ],
   "note": "Proved for elements which can be told apart without tags (Packable) in storage, packed, wire, descriptive, through Value and in JSON. The full statement is false of the code: options inside of packs take no space, Packed([None, Some(5)]) is silently read as [Some(5), None] in all binary formats (C115_violated_options, C115_full_statement_false); with native options a packed tuple copies its arrays where the packed struct writes their length (C115_violated_struct)."
  },
  {
   "property": "C116",
   "status": "proved",
   "theorems": [
    "Musli.Text.C116_utf8",
    "Musli.Text.C116_contents",
    "Musli.Text.C116_push_granted",
    "Musli.Text.C116_pushStr_granted",
    "Musli.Text.C116_from_utf8",
    "Musli.Text.C116_collect",
    "Musli.Text.C116_collect_granted",
    "Musli.Text.C116_encode",
    "Musli.Text.C116_encode_defined",
    "Musli.Text.C116_decode",
    "Musli.Text.C116_json",
    "Musli.Text.C116_encode_string",
    "Musli.Text.C116_visit",
    "Musli.Text.C116_order",
    "Musli.Text.C116_order_applies"
   ],
   "note": "The allocator is any function that grants or refuses each request; how System and Slice do that and keep the bytes is C32, C88-C90. Display implementations are all finite sequences of write_str and write_char which may depend on the results. Padding and flags of format strings are not modelled. collect_string with an implementation that ignores failed writes can return a text with parts missing (shown as an example); errors of the implementation are reported as AllocError."
  },
  {
   "property": "C117",
   "status": "proved",
   "theorems": [
    "Musli.C117_eq",
    "Musli.C117_order",
    "Musli.C117_consistent",
    "Musli.C117_dual",
    "Musli.C117_equivalence",
    "Musli.C117_transitive",
    "Musli.C117_float_order",
    "Musli.C117_numbers_by_type"
   ],
   "note": "Comparisons of integers, slices, tuples and Option are those of the standard library, modelled by their documentation. That the order of bit patterns is the order of floats is proved against the IEEE 754 specification of C83."
  },
  {
   "property": "C118",
   "status": "partial",
   "theorems": [
    "Musli.C118_written_partial",
    "Musli.C118_read_partial",
    "Musli.C118_arrays_partial",
    "Musli.C118_length_partial",
    "Musli.C118_value_partial",
    "Musli.Json.C118_json_written_partial",
    "Musli.Json.C118_json_read_partial",
    "Musli.Json.C118_violated_json_slice",
    "Musli.C118_full_statement_false"
   ],
   "note": "Proved for all formats and pairs of types but reading JSON as &[u8], which always fails: the JSON decoder collects the numbers and offers them with visit_owned, which the visitor of &[u8] does not accept (C118_violated_json_slice, C118_full_statement_false). That a JSON array with too many elements panics is C31. A VecDeque is modelled as its two slices; allocating does not fail."
  },
  {
   "property": "C119",
   "status": "partial",
   "theorems": [
    "Musli.C119_document",
    "Musli.C119_writes_iff",
    "Musli.C119_reads_any_text",
    "Musli.C119_writes_a_text_partial",
    "Musli.C119_round_trip_partial",
    "Musli.C119_unambiguous_partial",
    "Musli.C119_same_json_partial",
    "Musli.C119_musli_reads_serde_partial",
    "Musli.C119_violated_option_unit",
    "Musli.C119_violated_unit_struct",
    "Musli.C119_violated_unit_variant",
    "Musli.C119_full_statement_false"
   ],
   "note": "Proved but for options of what can be null (Some(()) is null and read as None: C119_violated_option_unit) and, for the same JSON as M\u00fcsli's own derive, unit structs and enums of unit variants (C119_violated_unit_struct, C119_violated_unit_variant); the full statement is false (C119_full_statement_false). Floats are read, but not written, in this model (see C122)."
  },
  {
   "property": "C120",
   "status": "proved",
   "theorems": [
    "Musli.C120_struct",
    "Musli.C120_round_trip",
    "Musli.C120_without_patterns",
    "Musli.C120_enum",
    "Musli.C120_enum_round_trip",
    "Musli.C120_enum_only",
    "Musli.C120_enum_unclaimed",
    "Musli.C120_unit",
    "Musli.C120_unit_round_trip_iff",
    "Musli.Json.C120_json_struct",
    "Musli.Json.C120_json_round_trip",
    "Musli.Json.C120_json_enum",
    "Musli.Json.C120_json_unit"
   ],
   "note": "Unknown entries of wire as far as wire can skip them (C13). Not for unknown or skipped values that contain enums with skip_encoding_if on fields of variants (C17)."
  },
  {
   "property": "C121",
   "status": "partial",
   "theorems": [
    "Musli.C121_encode",
    "Musli.C121_decode",
    "Musli.C121_round_trip",
    "Musli.C121_transparent",
    "Musli.C121_variant_partial",
    "Musli.C121_adjacent_partial",
    "Musli.C121_packed_partial",
    "Musli.Json.C121_json_encode",
    "Musli.Json.C121_json_decode",
    "Musli.Json.C121_json_round_trip",
    "Musli.Json.C121_json_variant",
    "Musli.Json.C121_json_packed",
    "Musli.C121_example",
    "Musli.C121_violated_variant",
    "Musli.C121_violated_adjacent",
    "Musli.C121_violated_packed",
    "Musli.C121_violated_packed_decode"
   ],
   "note": "Everything about #[musli(skip)] is proved. skip_encoding_if: structs fully (C10, C12, C16); enums are read back exactly if the number of fields written is the size hint of the enum, 1 or 2 for adjacently tagged ones (C121_variant_partial, C121_adjacent_partial), so the full statement is false (C121_violated_variant, C121_violated_adjacent); JSON enums are right (C121_json_variant). Packed: as stated unless the struct is copied bitwise (C121_packed_partial, C121_violated_packed), and then it cannot be read back (C121_violated_packed_decode)."
  },
  {
   "property": "C122",
   "status": "partial",
   "theorems": [
    "Musli.Json.C122_round_trip",
    "Musli.Json.C122_injective",
    "Musli.Json.C122_output_is_json",
    "Musli.Json.C122_skip_encoded",
    "Musli.Json.C122_without_floats",
    "Musli.Json.C122_violated_not_json",
    "Musli.Json.C122_violated_inside",
    "Musli.Json.C122_violated_sequence",
    "Musli.Json.C122_top_level"
   ],
   "note": "Proved for values whose floats are finite, for every ryu which is RyuLawful (Spec/Json/Finite.lean: finite numbers are JSON numbers which denote the float, NaN/inf/-inf otherwise; exactRyu shows that the requirements can be met). The full statement is false: an infinity or a NaN is not written as JSON (C122_violated_not_json), and cannot be read back if anything follows (C122_violated_inside, C122_violated_sequence); at the end of the input infinities are read back and all NaNs are read as the same one (C122_top_level)."
  },
  {
   "property": "C123",
   "status": "partial",
   "theorems": [
    "Musli.Std.C123_encode",
    "Musli.Std.C123_decode",
    "Musli.Std.C123_inverse",
    "Musli.Std.C123_any_representation_partial",
    "Musli.Std.C123_round_trip_partial",
    "Musli.Std.C123_output_is_json",
    "Musli.Std.C123_rejects",
    "Musli.Std.C123_platforms",
    "Musli.Std.C123_violated_rangeFull",
    "Musli.Std.C123_violated_cstr",
    "Musli.Std.C123_violated_lost",
    "Musli.Std.C123_keys",
    "Musli.Std.C123_violated_keys"
   ],
   "note": "Proved: the shape of what is written (C123_encode), exactly what is accepted (C123_decode, C123_rejects), all representations and the round trip of all values but exhausted ranges and flow information in the text mode, which are lost (C123_violated_lost). The full statement is also false for: RangeFull, which is decoded from any value (C123_violated_rangeFull); &CStr, which never decodes (C123_violated_cstr); keys other than addresses and socket addresses of a known kind as text, so IpAddr and SocketAddr (C123_violated_keys). Display and FromStr of addresses are parameters (NetText.Lawful)."
  },
  {
   "property": "C124",
   "status": "partial",
   "theorems": [
    "Musli.Std.C124_roundtrip_partial",
    "Musli.Std.C124_violated",
    "Musli.Std.C124_platforms",
    "Musli.Std.C124_full_statement_false"
   ],
   "note": "Proved: round trip of all values but RangeFull, paths on Unix, exhausted ranges and flow information in the text mode (C124_roundtrip_partial), and that paths of the other platform are rejected (C124_platforms). The full statement is false (C124_full_statement_false): RangeFull becomes an empty sequence but is decoded from (), a path on Unix becomes bytes but is decoded from a sequence (C124_violated). Display and FromStr of addresses are parameters (NetText.Lawful)."
  },
  {
   "property": "C125",
   "status": "partial",
   "theorems": [
    "Musli.Derive.C125_accepted",
    "Musli.Derive.C125_reported",
    "Musli.Derive.C125_agree",
    "Musli.Derive.C125_representation_partial",
    "Musli.Derive.C125_complete",
    "Musli.Derive.C125_content_ignored",
    "Musli.Derive.C125_violated_untagged",
    "Musli.Derive.C125_violated_custom",
    "Musli.Derive.C125_full_statement_false"
   ],
   "note": "Proved: what is accepted (C125_accepted), that errors are reported (C125_reported), that decoding reads what encoding writes (C125_agree), and the documented representation but for untagged enums without fields and custom transparent fields with tag (C125_representation_partial). False: untagged is ignored if no variant has fields (C125_violated_untagged); a transparent variant with `with` in an internally tagged enum decodes but never encodes (C125_violated_custom); packed types with skipped fields, and default variants with `tag`, are accepted but the code does not compile (C125_complete, an equivalence). content without tag is ignored (C125_content_ignored). The code emitted is summarised by the fields, the shape and the scope of variables."
  },
  {
   "property": "C126",
   "status": "partial",
   "theorems": [
    "Musli.Zero.MutableProps.C126_assign_partial",
    "Musli.Zero.MutableProps.C126_assigned_partial",
    "Musli.Zero.MutableProps.C126_element_partial",
    "Musli.Zero.MutableProps.C126_str",
    "Musli.Zero.MutableProps.C126_byte",
    "Musli.Zero.MutableProps.C126_uninit_partial",
    "Musli.Zero.MutableProps.C126_variables_partial",
    "Musli.Zero.MutableProps.C126_violated_by_padding",
    "Musli.Zero.MutableProps.C126_violated_by_uninit",
    "Musli.Zero.MutableProps.C126_violated_by_offset"
   ],
   "note": "Proved for types which are loaded and stored properly (C51, C52). False: assigning a value with padding through load_mut makes bytes of the buffer uninitialised (C126_violated_by_padding), and so does assigning MaybeUninit::uninit() to what load_uninit_mut returns (C126_violated_by_uninit); without overflow checks, load_uninit_mut of an offset close to usize::MAX writes in front of the buffer (C126_violated_by_offset)."
  },
  {
   "property": "C127",
   "status": "partial",
   "theorems": [
    "Musli.Zero.AlignedProps.C127_alignment",
    "Musli.Zero.AlignedProps.C127_to_aligned",
    "Musli.Zero.AlignedProps.C127_to_owned",
    "Musli.Zero.AlignedProps.C127_same_loads_partial",
    "Musli.Zero.AlignedProps.C127_to_owned_size",
    "Musli.Zero.AlignedProps.C127_violated_by_wrapping"
   ],
   "note": "C127_alignment, C127_to_aligned and C127_to_owned are full (the latter for buffers of up to 2^60 bytes); the loads agree for types which are loaded properly (C51), and not for others (C127_violated_by_wrapping). C127_to_owned_size: the copy made by to_owned takes at least as much memory as the address is aligned."
  },
  {
   "property": "C128",
   "status": "partial",
   "theorems": [
    "Musli.Zero.RefProps.C128_equal",
    "Musli.Zero.RefProps.C128_total",
    "Musli.Zero.RefProps.C128_order_partial",
    "Musli.Zero.RefProps.C128_to_ne",
    "Musli.Zero.RefProps.C128_violated_by_byte_order",
    "Musli.Zero.RefProps.C128_full_statement_false",
    "Musli.Zero.RefProps.C128_corrected",
    "Musli.Zero.RefProps.C128_corrected_equal",
    "Musli.Zero.RefProps.C128_corrected_total",
    "Musli.Zero.RefProps.C128_corrected_to_endian"
   ],
   "note": "C128_equal and C128_total are full. The order is that of offsets and lengths in the byte order of the platform and for offsets of one byte (C128_order_partial), and of what to_ne returns (C128_to_ne); in the other byte order it is false (C128_violated_by_byte_order, C128_full_statement_false). With offsets and lengths read before they are compared all of it holds (C128_corrected, _equal, _total, _to_endian)."
  },
  {
   "property": "C129",
   "status": "proved",
   "theorems": [
    "Musli.Json.C129_same",
    "Musli.Json.C129_enough",
    "Musli.Json.C129_plain",
    "Musli.Json.C129_no_memory"
   ],
   "note": "C129_same: the same string or refused. C129_no_memory: what is accepted without memory. C129_plain: strings without escapes need none. C129_enough: requests for less than the length of the input are all that is made. The allocator is an arbitrary function of the history of requests to grow the scratch buffer."
  },
  {
   "property": "C130",
   "status": "partial",
   "theorems": [
    "Musli.Trace.C130_text",
    "Musli.Trace.C130_error_text",
    "Musli.Trace.C130_path_partial",
    "Musli.Trace.C130_error_partial",
    "Musli.Trace.C130_lines_partial",
    "Musli.Trace.C130_report_partial",
    "Musli.Trace.C130_violated_index",
    "Musli.Trace.C130_violated_key",
    "Musli.Trace.C130_violated_lines",
    "Musli.Trace.C130_violated_transparent",
    "Musli.Trace.C130_violated_position"
   ],
   "note": "C130_text holds of all paths. That the text determines the error is false: keys are not escaped (C130_violated_key), a key with a line break makes up errors (C130_violated_lines), indexes look like keys (C130_violated_index), the names of transparent types run together (C130_violated_transparent), and the position is not separated from the message (C130_violated_position). Proved for paths of names in Rust with keys without ], : and line breaks which are not numbers, and messages without parentheses."
  },
  {
   "property": "C131",
   "status": "partial",
   "theorems": [
    "Musli.Props.C131_accepts",
    "Musli.Props.C131_names_unique",
    "Musli.Props.C131_swaps",
    "Musli.Props.C131_pairs_partial",
    "Musli.Props.C131_without",
    "Musli.Props.C131_violated_odd",
    "Musli.Props.C131_violated_cycle",
    "Musli.Props.C131_corrected",
    "Musli.Props.C131_corrected_pairs"
   ],
   "note": "That an accepted enum is made of pairs is false: a cycle of four variants is accepted, and swapping twice is another variant (C131_violated_cycle); CAN_SWAP_BYTES is then false, but ZeroCopy::swap_bytes is public. Pairs are proved when CAN_SWAP_BYTES is true. An enum with an odd number of variants is rejected even when each is its own partner (C131_violated_odd). With a check that a variant which is named names none or the one which names it, exactly the accepted enums which are made of pairs are accepted (C131_corrected, C131_corrected_pairs)."
  },
  {
   "property": "C132",
   "status": "partial",
   "theorems": [
    "Musli.Props.C132_parts",
    "Musli.Props.C132_literal",
    "Musli.Props.C132_text",
    "Musli.Props.C132_denotes",
    "Musli.Props.C132_keys_partial",
    "Musli.Props.C132_map_partial",
    "Musli.Props.C132_violated_bytes",
    "Musli.Props.C132_violated_replacement"
   ],
   "note": "The literals hold of all keys (C132_literal, C132_parts, C132_denotes). That different tries look different holds of keys which are UTF-8 and values without commas and braces (C132_keys_partial, C132_map_partial); bytes which are not UTF-8 cannot be told apart (C132_violated_bytes) nor from U+FFFD (C132_violated_replacement)."
  },
  {
   "property": "C133",
   "status": "partial",
   "theorems": [
    "Musli.Props.C133_kept",
    "Musli.Props.C133_once_partial",
    "Musli.Props.C133_nothing_else",
    "Musli.Props.C133_error_iff",
    "Musli.Props.C133_param",
    "Musli.Props.C133_completed",
    "Musli.Props.C133_encoder",
    "Musli.Props.C133_decoder",
    "Musli.Props.C133_visitor",
    "Musli.Props.C133_violated_twice",
    "Musli.Props.C133_violated_function",
    "Musli.Props.C133_violated_mode"
   ],
   "note": "Proved of names which are written at most once, functions without conditions (C133_once_partial); what is kept and put in, and when it is an error, of all implementations. False otherwise: a type written under a condition and again under its contrary is defined twice when the condition does not hold (C133_violated_twice), a function under a condition is then missing (C133_violated_function), and Cx, Mode, Error or Allocator under a condition is then Never instead of what it is when not written (C133_violated_mode)."
  },
  {
   "property": "C134",
   "status": "partial",
   "theorems": [
    "Musli.Props.C134_types_partial",
    "Musli.Props.C134_same_partial",
    "Musli.Props.C134_transparent_partial",
    "Musli.Props.C134_enum_partial",
    "Musli.Props.C134_variant_partial",
    "Musli.Props.C134_violated_order",
    "Musli.Props.C134_violated_ignored",
    "Musli.Props.C134_violated_self",
    "Musli.Props.C134_violated_self_types",
    "Musli.Props.C134_violated_discriminant"
   ],
   "note": "Proved without swap_bytes_self: fields, names and types of all fields which are not ignored are those which were seen (C134_types_partial, C134_enum_partial), a transparent struct has at most one such field (C134_transparent_partial), and what is validated is what is compiled if the order of named fields and the types of ignored fields were not changed (C134_same_partial). False otherwise: named fields can be reordered (C134_violated_order), ignored fields get another type (C134_violated_ignored), discriminants be changed (C134_violated_discriminant), and with swap_bytes_self types can be changed (C134_violated_self_types). With repr(transparent) and swap_bytes_self the second field of struct S(PhantomData<T>, bool) is not validated without any other macro (C134_violated_self). Changes of repr, and enums with zero_copy(swap_bytes), are not modelled."
  }
 ]
}