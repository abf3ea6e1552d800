import Verif.Props.Access
import Verif.Props.AccessFixed
import Verif.Props.Alloc
import Verif.Props.ArrayFixed
import Verif.Props.Attr
import Verif.Props.Binary
import Verif.Props.Bitwise
import Verif.Props.Borrow
import Verif.Props.BytesField
import Verif.Props.Calls
import Verif.Props.Collections
import Verif.Props.Conformance
import Verif.Props.ConformanceFloat
import Verif.Props.ConformanceInt
import Verif.Props.ConformanceZero
import Verif.Props.Derive
import Verif.Props.Discriminant
import Verif.Props.Documents
import Verif.Props.Fits
import Verif.Props.Float
import Verif.Props.FloatFixed
import Verif.Props.FloatInt
import Verif.Props.Grammar
import Verif.Props.IO
import Verif.Props.Integers
import Verif.Props.IoWrite
import Verif.Props.Json
import Verif.Props.JsonFloats
import Verif.Props.JsonLoose
import Verif.Props.JsonNumbers
import Verif.Props.JsonScratch
import Verif.Props.JsonValue
import Verif.Props.Lossy
import Verif.Props.Machine
import Verif.Props.MapAccess
import Verif.Props.NameTy
import Verif.Props.Numbers
import Verif.Props.Options
import Verif.Props.PackedField
import Verif.Props.Pattern
import Verif.Props.Pointer
import Verif.Props.Portable
import Verif.Props.Rename
import Verif.Props.Report
import Verif.Props.Samples
import Verif.Props.Serde
import Verif.Props.SerdeAny
import Verif.Props.SerdeJson
import Verif.Props.SkipCount
import Verif.Props.SkipField
import Verif.Props.Sneaky
import Verif.Props.Stack
import Verif.Props.Std
import Verif.Props.StdJson
import Verif.Props.StdValue
import Verif.Props.SwapAtFixed
import Verif.Props.SwapAttr
import Verif.Props.SwapAttrFixed
import Verif.Props.SysVec
import Verif.Props.Tagged
import Verif.Props.TaggedFixed
import Verif.Props.Text
import Verif.Props.Trace
import Verif.Props.Types
import Verif.Props.Upgrade
import Verif.Props.Value
import Verif.Props.ValueCmp
import Verif.Props.ValueFixed
import Verif.Props.ZeroAligned
import Verif.Props.ZeroEndian
import Verif.Props.ZeroLayout
import Verif.Props.ZeroMutable
import Verif.Props.ZeroOwned
import Verif.Props.ZeroPacked
import Verif.Props.ZeroPhf
import Verif.Props.ZeroPhfFixed
import Verif.Props.ZeroRef
import Verif.Props.ZeroRefCmp
import Verif.Props.ZeroRefCmpFixed
import Verif.Props.ZeroRobust
import Verif.Props.ZeroSearch
import Verif.Props.ZeroSip
import Verif.Props.ZeroSwapAt
import Verif.Props.ZeroSwiss
import Verif.Props.ZeroSwissFixed
import Verif.Props.ZeroTrie
import Verif.Props.ZeroTrieFixed
/-! Axioms of every property theorem, printed during the build. Generated by `tools/manifest.py`. -/
#print axioms Musli.C01_varint_roundtrip
#print axioms Musli.C02_varint_minimal
#print axioms Musli.C02_varint_bound
#print axioms Musli.C02_varint_shortest
#print axioms Musli.C03_varint_prefix_free
#print axioms Musli.C04_varint_consumes
#print axioms Musli.C04_varint_truncated
#print axioms Musli.C05_varint_exact_violated
#print axioms Musli.C05_varint_exact_partial
#print axioms Musli.C06_zigzag_decode_encode
#print axioms Musli.C06_zigzag_encode_decode
#print axioms Musli.C06_zigzag_value
#print axioms Musli.C07_unsigned_roundtrip
#print axioms Musli.C07_signed_roundtrip
#print axioms Musli.C07_fixed_layout
#print axioms Musli.C07_host_independent
#print axioms Musli.C08_usize_roundtrip
#print axioms Musli.C08_usize_no_truncation
#print axioms Musli.Opt.C09_options_independent
#print axioms Musli.Opt.C09_options_commute
#print axioms Musli.Opt.C09_defaults
#print axioms Musli.C10_storage_roundtrip
#print axioms Musli.C11_fast_path_roundtrip_partial
#print axioms Musli.C11_packed_roundtrip_partial
#print axioms Musli.C11_violated_tuple_of_bool_array
#print axioms Musli.C11_violated_boxed_array
#print axioms Musli.C11_violated_byte_order
#print axioms Musli.C11_full_statement_false
#print axioms Musli.C12_wire_roundtrip
#print axioms Musli.C13_wire_skip_partial
#print axioms Musli.C13_violated_fixed_usize
#print axioms Musli.C13_violated_variant
#print axioms Musli.C13_full_statement_false
#print axioms Musli.C14_violated_fixed_usize
#print axioms Musli.C14_wire_any_entries_partial
#print axioms Musli.C14_wire_reordered_partial
#print axioms Musli.C15_storage_unknown_field
#print axioms Musli.C16_descriptive_roundtrip
#print axioms Musli.C17_descriptive_skip_partial
#print axioms Musli.C17_violated_variant
#print axioms Musli.C17_full_statement_false
#print axioms Musli.C18_wire_sequence_partial
#print axioms Musli.C18_descriptive_sequence_partial
#print axioms Musli.C18_wire_map_partial
#print axioms Musli.C18_descriptive_map_partial
#print axioms Musli.C18_storage_map
#print axioms Musli.C18_storage_sequence
#print axioms Musli.C18_violated_descriptive
#print axioms Musli.C18_full_statement_false
#print axioms Musli.C19_same_width_partial
#print axioms Musli.C19_widening_partial
#print axioms Musli.C19_far_out_of_range_partial
#print axioms Musli.C19_violated_narrowing
#print axioms Musli.C19_full_statement_false
#print axioms Musli.C20_truncated
#print axioms Musli.C21_unambiguous
#print axioms Musli.C22_suffix
#print axioms Musli.C22_local
#print axioms Musli.C22_skip
#print axioms Musli.C23_never_beyond_limit
#print axioms Musli.C23_limit_exact
#print axioms Musli.C23_nested
#print axioms Musli.C23_never_beyond_limit_ptr
#print axioms Musli.C23_failed_read_consumes_limit
#print axioms Musli.C24_fixed_bytes
#print axioms Musli.C24_slice_mut_writer
#print axioms Musli.C24_success_iff_fits
#print axioms Musli.C24_to_slice
#print axioms Musli.Json.C25_string_round_trip
#print axioms Musli.Json.C26_string_iff
#print axioms Musli.Json.C27_full_statement_false
#print axioms Musli.Json.C27_unsigned_in_range_partial
#print axioms Musli.Json.C27_signed_in_range_partial
#print axioms Musli.Json.C27_unsigned_out_of_range_partial
#print axioms Musli.Json.C27_signed_out_of_range_partial
#print axioms Musli.Json.C27_unsigned_modulo_partial
#print axioms Musli.Json.C28_integers_round_trip
#print axioms Musli.Json.C29_skip_any_value
#print axioms Musli.Json.C29_skip_encoded
#print axioms Musli.Json.C30_round_trip
#print axioms Musli.Json.C30_injective
#print axioms Musli.Json.C31_corrected
#print axioms Musli.Json.C31_full_statement_false
#print axioms Musli.Json.C31_byte_array_partial
#print axioms Musli.Json.C31_more_panics
#print axioms Musli.Slice.C32_violated_by_reuse
#print axioms Musli.Slice.C32_violated_by_append
#print axioms Musli.Slice.C32_violated_by_overlap
#print axioms Musli.Slice.C32_corrected
#print axioms Musli.Slice.C32_partial
#print axioms Musli.Json.C33_full_statement_false
#print axioms Musli.Json.C33_rest_is_utf8_partial
#print axioms Musli.C34_violated_variant
#print axioms Musli.C34_descriptive_any_entries_partial
#print axioms Musli.C34_descriptive_reordered_partial
#print axioms Musli.C35_slice_reader
#print axioms Musli.C35_reads_in_order
#print axioms Musli.C36_mark_slice_partial
#print axioms Musli.C36_violated_slice_reader
#print axioms Musli.C36_full_statement_false
#print axioms Musli.C36_mark_fixed_partial
#print axioms Musli.C36_mark_vec_partial
#print axioms Musli.Json.C37_output_is_json
#print axioms Musli.Json.C38_decode_any_representation
#print axioms Musli.Json.C38_unambiguous
#print axioms Musli.Json.C38_encoder
#print axioms Musli.Json.C39_decode_arbitrary
#print axioms Musli.Json.C39_skip_arbitrary
#print axioms Musli.C40_accepts_exactly
#print axioms Musli.C40_rejects_the_rest
#print axioms Musli.C40_storage_bool
#print axioms Musli.C40_string_bytes
#print axioms Musli.C40_encodings_are_documents
#print axioms Musli.Json.C41_full_statement_false
#print axioms Musli.Json.C41_more_counterexamples
#print axioms Musli.Json.C41_unsigned_partial
#print axioms Musli.Json.C41_signed_partial
#print axioms Musli.Json.C41_unsigned_sound_partial
#print axioms Musli.Json.C41_signed_sound_partial
#print axioms Musli.Json.C42_full_statement_false
#print axioms Musli.Json.C42_more_counterexamples
#print axioms Musli.Json.C42_accepts_only_partial
#print axioms Musli.Json.C42_bool
#print axioms Musli.Json.C42_char
#print axioms Musli.Zero.C43_binary_search_by
#print axioms Musli.Zero.C43_binary_search
#print axioms Musli.Zero.C43_no_other_error
#print axioms Musli.Zero.Swiss.C44_map
#print axioms Musli.Zero.Swiss.C44_map_unique
#print axioms Musli.Zero.Swiss.C44_set
#print axioms Musli.Zero.Swiss.C45_full_statement_false
#print axioms Musli.Zero.Swiss.C45_other_direction_fails
#print axioms Musli.Zero.Swiss.C45_same_width_partial
#print axioms Musli.Zero.Swiss.C46_len_partial
#print axioms Musli.Zero.Swiss.C46_full_statement_false
#print axioms Musli.Zero.Swiss.C46_corrected
#print axioms Musli.Zero.Swiss.C47_full_statement_false
#print axioms Musli.Zero.Swiss.C47_bind_partial
#print axioms Musli.Zero.Swiss.C47_corrected
#print axioms Musli.Zero.Phf.C48_sound
#print axioms Musli.Zero.Phf.C48_set_sound
#print axioms Musli.Zero.Phf.C48_small_partial
#print axioms Musli.Zero.Phf.C48_set_small_partial
#print axioms Musli.Zero.Phf.C48_full_statement_false
#print axioms Musli.Zero.Phf.C48_corrected
#print axioms Musli.Zero.Phf.C48_set_corrected
#print axioms Musli.Zero.Phf.C48_exact_partial
#print axioms Musli.Zero.Phf.C48_violated_by_order
#print axioms Musli.Zero.Phf.C49_duplicates_never_terminate
#print axioms Musli.Zero.Phf.C49_equal_hashes_never_terminate
#print axioms Musli.Zero.Phf.C49_perfect_partial
#print axioms Musli.Zero.Phf.C49_full_statement_false
#print axioms Musli.Zero.Phf.C49_small_partial
#print axioms Musli.Zero.Phf.C50_phf_full_statement_false
#print axioms Musli.Zero.Phf.C50_phf_partial
#print axioms Musli.Zero.Swiss.C50_swiss_full_statement_false
#print axioms Musli.Zero.Swiss.C50_swiss_partial
#print axioms Musli.Zero.Swiss.C50_swiss_set_partial
#print axioms Musli.Zero.LayoutProps.C51_load_partial
#print axioms Musli.Zero.LayoutProps.C51_load_unaligned_partial
#print axioms Musli.Zero.LayoutProps.C51_load_slice_partial
#print axioms Musli.Zero.LayoutProps.C51_load_str
#print axioms Musli.Zero.LayoutProps.C51_violated_by_packed
#print axioms Musli.Zero.LayoutProps.C51_violated_by_ignored
#print axioms Musli.Zero.LayoutProps.C51_violated_by_nesting
#print axioms Musli.Zero.LayoutProps.C51_violated_by_wrapping
#print axioms Musli.Zero.LayoutProps.C51_violated_by_unaligned
#print axioms Musli.Zero.LayoutProps.C51_violated_by_offset
#print axioms Musli.Zero.LayoutProps.C52_store_partial
#print axioms Musli.Zero.LayoutProps.C52_not_padded
#print axioms Musli.Zero.LayoutProps.C52_store_load_partial
#print axioms Musli.Zero.LayoutProps.C52_violated_by_packed
#print axioms Musli.Zero.LayoutProps.C52_violated_by_underflow
#print axioms Musli.Zero.LayoutProps.C52_violated_by_ignored
#print axioms Musli.Zero.OwnedProps.C53_contents_partial
#print axioms Musli.Zero.OwnedProps.C53_round_trip_partial
#print axioms Musli.Zero.OwnedProps.C53_total_partial
#print axioms Musli.Zero.OwnedProps.C53_total_slice_partial
#print axioms Musli.Zero.OwnedProps.C53_violated_by_slice
#print axioms Musli.Zero.OwnedProps.C54_safe_partial
#print axioms Musli.Zero.OwnedProps.C54_violated_by_clone
#print axioms Musli.Zero.RefProps.C55_construct_partial
#print axioms Musli.Zero.RefProps.C55_read_partial
#print axioms Musli.Zero.RefProps.C55_to_endian_partial
#print axioms Musli.Zero.RefProps.C55_portable
#print axioms Musli.Zero.RefProps.C55_violated_by_usize
#print axioms Musli.Zero.RefProps.C56_get
#print axioms Musli.Zero.RefProps.C56_split_at
#print axioms Musli.Zero.RefProps.C56_iter_partial
#print axioms Musli.Zero.RefProps.C56_violated_by_zero_sized
#print axioms Musli.Zero.RefProps.C56_load_partial
#print axioms Musli.Zero.RefProps.C57_coerce_partial
#print axioms Musli.Zero.RefProps.C57_array_into_slice_partial
#print axioms Musli.Zero.RefProps.C57_violated_by_byte_order
#print axioms Musli.Zero.RefProps.C57_violated_by_array_into_slice
#print axioms Musli.Zero.RefProps.C57_which
#print axioms Musli.Zero.EndianProps.C58_bytes_partial
#print axioms Musli.Zero.EndianProps.C58_typed_partial
#print axioms Musli.Zero.EndianProps.C58_round_trip_partial
#print axioms Musli.Zero.EndianProps.C58_native
#print axioms Musli.Zero.EndianProps.C58_portable_partial
#print axioms Musli.Zero.EndianProps.C58_transfer_partial
#print axioms Musli.Zero.EndianProps.C58_exchange_partial
#print axioms Musli.Zero.EndianProps.C58_violated_by_field_order
#print axioms Musli.Zero.Discriminant.C59_discriminants
#print axioms Musli.Zero.Discriminant.C59_cross_compilation
#print axioms Musli.Zero.Trie.C60_insert
#print axioms Musli.Zero.Trie.C60_iter
#print axioms Musli.Zero.Trie.C60_total
#print axioms Musli.Zero.Trie.C60_corrected_insert
#print axioms Musli.Zero.Trie.C61_get_partial
#print axioms Musli.Zero.Trie.C61_get_sorted_partial
#print axioms Musli.Zero.Trie.C61_violated_by_order
#print axioms Musli.Zero.Trie.C61_violated_by_absent_key
#print axioms Musli.Zero.Trie.C61_corrected
#print axioms Musli.Zero.Trie.C61_corrected_found
#print axioms Musli.Zero.Trie.C62_iter_in_partial
#print axioms Musli.Zero.Trie.C62_iter_in_sorted_partial
#print axioms Musli.Zero.Trie.C62_violated_by_order
#print axioms Musli.Zero.Trie.C62_violated_by_absent_prefix
#print axioms Musli.Zero.Trie.C62_corrected
#print axioms Musli.C63_value_roundtrip_partial
#print axioms Musli.C63_violated_some_unit
#print axioms Musli.C63_violated_vec_unit
#print axioms Musli.C63_violated_tuple_unit
#print axioms Musli.C63_full_statement_false
#print axioms Musli.C63_corrected
#print axioms Musli.C63_corrected_same
#print axioms Musli.C64_integers_across_types
#print axioms Musli.C64_string_keys
#print axioms Musli.C64_string_keys_only_digits
#print axioms Musli.C64_strings_are_not_integers
#print axioms Musli.C65_decode_identity
#print axioms Musli.C65_encode_identity_partial
#print axioms Musli.C65_violated
#print axioms Musli.C65_full_statement_false
#print axioms Musli.C66_buffered_partial
#print axioms Musli.C66_buffered_default_options_partial
#print axioms Musli.C66_violated_packed_fixed
#print axioms Musli.C66_full_statement_false
#print axioms Musli.C67_value_through_descriptive_partial
#print axioms Musli.C67_width_not_observable
#print axioms Musli.C67_violated_usize
#print axioms Musli.C67_full_statement_false
#print axioms Musli.C68_transcode_partial
#print axioms Musli.C68_transcode_storage_partial
#print axioms Musli.C68_violated_storage_bytes
#print axioms Musli.C68_violated_storage_packed
#print axioms Musli.C68_violated_unit
#print axioms Musli.C68_full_statement_false
#print axioms Musli.Json.C69_document_as_value
#print axioms Musli.Json.C69_values_differ
#print axioms Musli.Json.C69_one_document
#print axioms Musli.Json.C70_any_text_partial
#print axioms Musli.Json.C70_round_trip_partial
#print axioms Musli.Json.C70_never_partial
#print axioms Musli.Json.C70_violated_option
#print axioms Musli.Json.C70_violated_char_bytes_enum
#print axioms Musli.Json.C70_full_statement_false
#print axioms Musli.C71_round_trip_partial
#print axioms Musli.C71_round_trip_wire_descriptive
#print axioms Musli.C71_prefix_free_partial
#print axioms Musli.C71_round_trip_json
#print axioms Musli.C71_violated_order
#print axioms Musli.C71_full_statement_false
#print axioms Musli.C72_documents
#print axioms Musli.C72_documents_json
#print axioms Musli.C73_round_trip_descriptive_partial
#print axioms Musli.C73_round_trip_json_partial
#print axioms Musli.C73_violated_names
#print axioms Musli.C73_violated_clash
#print axioms Musli.C73_violated_map
#print axioms Musli.C73_violated_encode
#print axioms Musli.C73_violated_option
#print axioms Musli.C73_full_statement_false
#print axioms Musli.C73_json_full_statement_false
#print axioms Musli.C74_documents_descriptive
#print axioms Musli.C74_documents_json
#print axioms Musli.C75_decode_partial
#print axioms Musli.C75_violated_sequence
#print axioms Musli.C75_decode_json_partial
#print axioms Musli.C75_no_clone_last_only
#print axioms Musli.C75_violated_json_sequence
#print axioms Musli.C75_violated
#print axioms Musli.C75_full_statement_false
#print axioms Musli.C75_corrected
#print axioms Musli.C75_corrected_roundtrip
#print axioms Musli.C75_corrected_sequence
#print axioms Musli.C75_corrected_json
#print axioms Musli.C76_known
#print axioms Musli.C76_unknown
#print axioms Musli.C76_unknown_storage
#print axioms Musli.C76_unit
#print axioms Musli.C76_json
#print axioms Musli.C76_unit_json
#print axioms Musli.Zero.Sip.C77_siphash
#print axioms Musli.Zero.Sip.C77_chunks
#print axioms Musli.Zero.Portable.C78_hash_partial
#print axioms Musli.Zero.Portable.C78_map_partial
#print axioms Musli.Zero.Portable.C78_violated_set
#print axioms Musli.Zero.Portable.C78_violated_numbers
#print axioms Musli.Zero.SwapAt.C79_corrected
#print axioms Musli.Zero.SwapAt.C79_corrected_same
#print axioms Musli.Zero.SwapAt.C79_swap_partial
#print axioms Musli.Zero.SwapAt.C79_twice_partial
#print axioms Musli.Zero.SwapAt.C79_violated_overflow
#print axioms Musli.Zero.SwapAt.C79_violated_same
#print axioms Musli.Access.C80_guards_partial
#print axioms Musli.Access.C80_violated_clone
#print axioms Musli.Access.C80_corrected
#print axioms Musli.Access.C80_corrected_unchanged
#print axioms Musli.Access.C80_corrected_aborts
#print axioms Musli.Trace.C81_path_partial
#print axioms Musli.Trace.C81_capped_partial
#print axioms Musli.Trace.C81_balanced
#print axioms Musli.Trace.C81_violated_key
#print axioms Musli.Trace.C81_violated_clear
#print axioms Musli.Trace.C81_violated_room
#print axioms Musli.Trace.C82_result_partial
#print axioms Musli.Trace.C82_violated_untagged
#print axioms Musli.Trace.C82_violated_path
#print axioms Musli.Dec2Flt.C83_f64_correctly_rounded_partial
#print axioms Musli.Dec2Flt.C83_f32_correctly_rounded_partial
#print axioms Musli.Dec2Flt.C83_result_unique
#print axioms Musli.Dec2Flt.C83_f64_exact
#print axioms Musli.Dec2Flt.C83_f64_monotone
#print axioms Musli.Dec2Flt.C83_violated
#print axioms Musli.Dec2Flt.C84_words
#print axioms Musli.Dec2Flt.C84_accepted
#print axioms Musli.Dec2Flt.C85_never_panics
#print axioms Musli.Dec2Flt.C85_length
#print axioms Musli.Dec2Flt.C86_json_float_partial
#print axioms Musli.Dec2Flt.C86_violated
#print axioms Musli.Dec2Flt.C86_violated_field
#print axioms Musli.Dec2Flt.C86_corrected
#print axioms Musli.Dec2Flt.C86_corrected_field
#print axioms Musli.Dec2Flt.C86_corrected_extends
#print axioms Musli.Dec2Flt.C86_corrected_accepted
#print axioms Musli.C87_wire_complete
#print axioms Musli.C87_descriptive_complete
#print axioms Musli.C87_wire_checked_partial
#print axioms Musli.C87_descriptive_checked_partial
#print axioms Musli.C87_narrow_partial
#print axioms Musli.C87_narrow_no_panic_partial
#print axioms Musli.C87_violated_panic
#print axioms Musli.C87_violated_release
#print axioms Musli.C87_violated_not_items
#print axioms Musli.Sys.C88_corrected
#print axioms Musli.Sys.C88_partial
#print axioms Musli.Sys.C88_violated_clear
#print axioms Musli.Sys.C89_corrected
#print axioms Musli.Sys.C89_partial
#print axioms Musli.Sys.C89_violated_zero_sized
#print axioms Musli.Sys.C89_violated_box
#print axioms Musli.Sys.C89_violated_clear
#print axioms Musli.Sys.C90_corrected
#print axioms Musli.Sys.C90_memory
#print axioms Musli.Sys.C90_layout
#print axioms Musli.Sys.C90_contents
#print axioms Musli.Rename.C91_words
#print axioms Musli.Rename.C91_words_sound
#print axioms Musli.Rename.C91_precedence
#print axioms Musli.Rename.C91_default
#print axioms Musli.Rename.C91_values
#print axioms Musli.Rename.C92_collision_iff
#print axioms Musli.Rename.C92_fields_partial
#print axioms Musli.Rename.C92_variants_partial
#print axioms Musli.Rename.C92_index
#print axioms Musli.Rename.C92_violated
#print axioms Musli.Rename.C92_full_statement_false
#print axioms Musli.Rename.C92_violated_roundtrip
#print axioms Musli.Std.C93_roundtrip_partial
#print axioms Musli.Std.C93_violated_path
#print axioms Musli.Std.C93_platforms
#print axioms Musli.Std.C93_violated_flow
#print axioms Musli.Std.C93_violated_exhausted
#print axioms Musli.Std.C93_violated_rangeFull
#print axioms Musli.Std.C93_violated_path_order
#print axioms Musli.Std.C93_full_statement_false
#print axioms Musli.Mem.C94_decode_partial
#print axioms Musli.Mem.C94_violated_atomicBool
#print axioms Musli.Mem.C94_full_statement_false
#print axioms Musli.Mem.C94_violated_vec
#print axioms Musli.Mem.C94_encode
#print axioms Musli.Mem.C94_fields
#print axioms Musli.Mem.C94_roundtrip
#print axioms Musli.Mem.C94_size
#print axioms Musli.Mem.C94_attributes_encode
#print axioms Musli.Mem.C94_attributes_decode
#print axioms Musli.Mem.C95_slice
#print axioms Musli.Mem.C95_slice_memory
#print axioms Musli.Mem.C95_collection_partial
#print axioms Musli.Mem.C95_bounded
#print axioms Musli.Mem.C95_violated_value
#print axioms Musli.Mem.C95_value_unbounded
#print axioms Musli.Mem.C95_violated_empty
#print axioms Musli.C96_serde_roundtrip
#print axioms Musli.C96_serde_packed_roundtrip
#print axioms Musli.C96_serde_unambiguous
#print axioms Musli.C97_same_bytes_partial
#print axioms Musli.C97_serde_reads_musli_partial
#print axioms Musli.C97_musli_reads_serde_partial
#print axioms Musli.C97_musli_accepts_what_serde_accepts_partial
#print axioms Musli.C97_violated_usize
#print axioms Musli.C97_violated_unit_struct
#print axioms Musli.C97_violated_unit_enum
#print axioms Musli.C97_violated_fast_path
#print axioms Musli.C97_violated_missing_option
#print axioms Musli.C97_violated_longer_array
#print axioms Musli.C97_full_statement_false
#print axioms Musli.C98_wire_reordered_partial
#print axioms Musli.C98_descriptive_reordered
#print axioms Musli.C98_wire_entries_partial
#print axioms Musli.C98_descriptive_entries
#print axioms Musli.C98_violated_fixed_usize
#print axioms Musli.C98_duplicate_rejected
#print axioms Musli.C99_wire_partial
#print axioms Musli.C99_descriptive
#print axioms Musli.C99_storage_partial
#print axioms Musli.C99_value_partial
#print axioms Musli.C99_json_partial
#print axioms Musli.C99_violated_storage
#print axioms Musli.C99_violated_storage_beyond
#print axioms Musli.C99_violated_value
#print axioms Musli.C99_full_statement_false
#print axioms Musli.C100_map
#print axioms Musli.C100_map_document
#print axioms Musli.C100_map_accepts
#print axioms Musli.C100_map_value
#print axioms Musli.C100_set
#print axioms Musli.C100_set_roundtrip
#print axioms Musli.C100_heap
#print axioms Musli.C100_deque_bytes
#print axioms Musli.C100_deque
#print axioms Musli.C100_map_json
#print axioms Musli.Io.C101_success
#print axioms Musli.Io.C101_failure
#print axioms Musli.Io.C101_no_spurious_failure
#print axioms Musli.Io.C101_independent_of_writes
#print axioms Musli.Io.C101_buffered
#print axioms Musli.Io.C101_buffered_success_loses
#print axioms Musli.C102_succeeds_iff
#print axioms Musli.C102_error_is_overflow
#print axioms Musli.C102_default_roundtrip
#print axioms Musli.C102_default_limit
#print axioms Musli.C103_same_everywhere_partial
#print axioms Musli.C103_wire_descriptive_partial
#print axioms Musli.C103_violated_storage
#print axioms Musli.C103_violated_wire_pack
#print axioms Musli.C103_full_statement_false
#print axioms Musli.C104_wire
#print axioms Musli.C104_descriptive
#print axioms Musli.C104_json
#print axioms Musli.C104_unknown_variant
#print axioms Musli.C105_same_bytes_partial
#print axioms Musli.C105_read_back_partial
#print axioms Musli.C105_json
#print axioms Musli.C105_json_text
#print axioms Musli.C105_descriptive_one_value
#print axioms Musli.C105_wire_one_value_partial
#print axioms Musli.C105_slice
#print axioms Musli.C105_slices
#print axioms Musli.C105_unknown_length
#print axioms Musli.C105_violated_wrong_number
#print axioms Musli.C105_violated_bitwise
#print axioms Musli.C105_full_statement_false
#print axioms Musli.C106_binary_partial
#print axioms Musli.C106_json_skip_partial
#print axioms Musli.C106_violated_json
#print axioms Musli.C106_violated_json_value
#print axioms Musli.C106_violated_descriptive_value
#print axioms Musli.C107_binary_str_partial
#print axioms Musli.C107_binary_bytes_partial
#print axioms Musli.C107_binary_part_partial
#print axioms Musli.C107_violated_slice
#print axioms Musli.C107_slice_partial
#print axioms Musli.Json.C107_json_str_partial
#print axioms Musli.Json.C107_json_agree_partial
#print axioms Musli.Json.C107_json_encoded_partial
#print axioms Musli.Json.C107_violated_json_str
#print axioms Musli.Json.C107_violated_json_bytes
#print axioms Musli.Json.C107_json_bytes_partial
#print axioms Musli.Attr.C108_resolution_partial
#print axioms Musli.Attr.C108_items
#print axioms Musli.Attr.C108_errors_partial
#print axioms Musli.Attr.C108_sound
#print axioms Musli.Attr.C108_implemented_partial
#print axioms Musli.Attr.C108_isolated
#print axioms Musli.Attr.C108_violated_custom
#print axioms Musli.Attr.C108_violated_mixed
#print axioms Musli.Attr.C108_violated_twice
#print axioms Musli.Attr.C108_violated_default
#print axioms Musli.Rename.C109_rule
#print axioms Musli.Rename.C109_rule_variants
#print axioms Musli.Rename.C109_type
#print axioms Musli.Rename.C109_names
#print axioms Musli.Rename.C109_typed_iff
#print axioms Musli.Rename.C109_typed_partial
#print axioms Musli.Rename.C109_violated_bytes
#print axioms Musli.Rename.C109_violated_tuple
#print axioms Musli.Rename.C109_violated_infer
#print axioms Musli.C110_float_as_integer_partial
#print axioms Musli.C110_exact_partial
#print axioms Musli.C110_float
#print axioms Musli.C110_violated_integer_as_float
#print axioms Musli.C110_violated
#print axioms Musli.C110_full_statement_false
#print axioms Musli.Zero.RefProps.C111_construct
#print axioms Musli.Zero.RefProps.C111_read
#print axioms Musli.Zero.RefProps.C111_portable
#print axioms Musli.Zero.RefProps.C111_get_partial
#print axioms Musli.Zero.RefProps.C111_violated_get
#print axioms Musli.Zero.RefProps.C111_split_at
#print axioms Musli.Zero.RefProps.C111_violated_split
#print axioms Musli.Zero.RefProps.C111_full_statement_false
#print axioms Musli.Zero.RefProps.C111_load
#print axioms Musli.C112_any_partial
#print axioms Musli.C112_types_partial
#print axioms Musli.C112_violated_variants
#print axioms Musli.C112_full_statement_false
#print axioms Musli.C112_json_shows_text
#print axioms Musli.C112_json_any
#print axioms Musli.C112_json_kept_partial
#print axioms Musli.C113_model_w64
#print axioms Musli.C113_usize_partial
#print axioms Musli.C113_usize_too_large_partial
#print axioms Musli.C113_violated_usize
#print axioms Musli.C113_isize_descriptive_partial
#print axioms Musli.C113_isize_descriptive_too_large_partial
#print axioms Musli.C113_violated_isize_descriptive
#print axioms Musli.C113_isize_partial
#print axioms Musli.C113_isize_same_width_partial
#print axioms Musli.C113_violated_isize_wider
#print axioms Musli.C113_violated_isize_narrower
#print axioms Musli.C113_full_statement_false
#print axioms Musli.C114_model_w64
#print axioms Musli.C114_round_trip
#print axioms Musli.C114_same_bytes
#print axioms Musli.C114_documents_partial
#print axioms Musli.C114_violated_isize
#print axioms Musli.C114_violated_length
#print axioms Musli.C114_violated_copy
#print axioms Musli.C114_violated_copy_all
#print axioms Musli.C114_copy_w64
#print axioms Musli.C114_full_statement_false
#print axioms Musli.PackedField.C115_array_round_trip_partial
#print axioms Musli.PackedField.C115_tuple_round_trip_partial
#print axioms Musli.PackedField.C115_shorter_array
#print axioms Musli.PackedField.C115_shorter_array_storage
#print axioms Musli.PackedField.C115_vec_like_array
#print axioms Musli.PackedField.C115_deque_like_array
#print axioms Musli.PackedField.C115_encode_slice_is_push
#print axioms Musli.PackedField.C115_tuple_like_struct_partial
#print axioms Musli.PackedField.C115_tuple_like_struct_read_partial
#print axioms Musli.PackedField.C115_value_array_partial
#print axioms Musli.PackedField.C115_value_tuple_partial
#print axioms Musli.PackedField.C115_json_is_array
#print axioms Musli.PackedField.C115_json_reads
#print axioms Musli.PackedField.C115_json_round_trip_partial
#print axioms Musli.PackedField.C115_json_tuple
#print axioms Musli.PackedField.C115_violated_options
#print axioms Musli.PackedField.C115_violated_struct
#print axioms Musli.PackedField.C115_full_statement_false
#print axioms Musli.Text.C116_utf8
#print axioms Musli.Text.C116_contents
#print axioms Musli.Text.C116_push_granted
#print axioms Musli.Text.C116_pushStr_granted
#print axioms Musli.Text.C116_from_utf8
#print axioms Musli.Text.C116_collect
#print axioms Musli.Text.C116_collect_granted
#print axioms Musli.Text.C116_encode
#print axioms Musli.Text.C116_encode_defined
#print axioms Musli.Text.C116_decode
#print axioms Musli.Text.C116_json
#print axioms Musli.Text.C116_encode_string
#print axioms Musli.Text.C116_visit
#print axioms Musli.Text.C116_order
#print axioms Musli.Text.C116_order_applies
#print axioms Musli.C117_eq
#print axioms Musli.C117_order
#print axioms Musli.C117_consistent
#print axioms Musli.C117_dual
#print axioms Musli.C117_equivalence
#print axioms Musli.C117_transitive
#print axioms Musli.C117_float_order
#print axioms Musli.C117_numbers_by_type
#print axioms Musli.C118_written_partial
#print axioms Musli.C118_read_partial
#print axioms Musli.C118_arrays_partial
#print axioms Musli.C118_length_partial
#print axioms Musli.C118_value_partial
#print axioms Musli.Json.C118_json_written_partial
#print axioms Musli.Json.C118_json_read_partial
#print axioms Musli.Json.C118_violated_json_slice
#print axioms Musli.C118_full_statement_false
#print axioms Musli.C119_document
#print axioms Musli.C119_writes_iff
#print axioms Musli.C119_reads_any_text
#print axioms Musli.C119_writes_a_text_partial
#print axioms Musli.C119_round_trip_partial
#print axioms Musli.C119_unambiguous_partial
#print axioms Musli.C119_same_json_partial
#print axioms Musli.C119_musli_reads_serde_partial
#print axioms Musli.C119_violated_option_unit
#print axioms Musli.C119_violated_unit_struct
#print axioms Musli.C119_violated_unit_variant
#print axioms Musli.C119_full_statement_false
#print axioms Musli.C120_struct
#print axioms Musli.C120_round_trip
#print axioms Musli.C120_without_patterns
#print axioms Musli.C120_enum
#print axioms Musli.C120_enum_round_trip
#print axioms Musli.C120_enum_only
#print axioms Musli.C120_enum_unclaimed
#print axioms Musli.C120_unit
#print axioms Musli.C120_unit_round_trip_iff
#print axioms Musli.Json.C120_json_struct
#print axioms Musli.Json.C120_json_round_trip
#print axioms Musli.Json.C120_json_enum
#print axioms Musli.Json.C120_json_unit
#print axioms Musli.C121_encode
#print axioms Musli.C121_decode
#print axioms Musli.C121_round_trip
#print axioms Musli.C121_transparent
#print axioms Musli.C121_variant_partial
#print axioms Musli.C121_adjacent_partial
#print axioms Musli.C121_packed_partial
#print axioms Musli.Json.C121_json_encode
#print axioms Musli.Json.C121_json_decode
#print axioms Musli.Json.C121_json_round_trip
#print axioms Musli.Json.C121_json_variant
#print axioms Musli.Json.C121_json_packed
#print axioms Musli.C121_example
#print axioms Musli.C121_violated_variant
#print axioms Musli.C121_violated_adjacent
#print axioms Musli.C121_violated_packed
#print axioms Musli.C121_violated_packed_decode
#print axioms Musli.Json.C122_round_trip
#print axioms Musli.Json.C122_injective
#print axioms Musli.Json.C122_output_is_json
#print axioms Musli.Json.C122_skip_encoded
#print axioms Musli.Json.C122_without_floats
#print axioms Musli.Json.C122_violated_not_json
#print axioms Musli.Json.C122_violated_inside
#print axioms Musli.Json.C122_violated_sequence
#print axioms Musli.Json.C122_top_level
#print axioms Musli.Std.C123_encode
#print axioms Musli.Std.C123_decode
#print axioms Musli.Std.C123_inverse
#print axioms Musli.Std.C123_any_representation_partial
#print axioms Musli.Std.C123_round_trip_partial
#print axioms Musli.Std.C123_output_is_json
#print axioms Musli.Std.C123_rejects
#print axioms Musli.Std.C123_platforms
#print axioms Musli.Std.C123_violated_rangeFull
#print axioms Musli.Std.C123_violated_cstr
#print axioms Musli.Std.C123_violated_lost
#print axioms Musli.Std.C123_keys
#print axioms Musli.Std.C123_violated_keys
#print axioms Musli.Std.C124_roundtrip_partial
#print axioms Musli.Std.C124_violated
#print axioms Musli.Std.C124_platforms
#print axioms Musli.Std.C124_full_statement_false
#print axioms Musli.Derive.C125_accepted
#print axioms Musli.Derive.C125_reported
#print axioms Musli.Derive.C125_agree
#print axioms Musli.Derive.C125_representation_partial
#print axioms Musli.Derive.C125_complete
#print axioms Musli.Derive.C125_content_ignored
#print axioms Musli.Derive.C125_violated_untagged
#print axioms Musli.Derive.C125_violated_custom
#print axioms Musli.Derive.C125_full_statement_false
#print axioms Musli.Zero.MutableProps.C126_assign_partial
#print axioms Musli.Zero.MutableProps.C126_assigned_partial
#print axioms Musli.Zero.MutableProps.C126_element_partial
#print axioms Musli.Zero.MutableProps.C126_str
#print axioms Musli.Zero.MutableProps.C126_byte
#print axioms Musli.Zero.MutableProps.C126_uninit_partial
#print axioms Musli.Zero.MutableProps.C126_variables_partial
#print axioms Musli.Zero.MutableProps.C126_violated_by_padding
#print axioms Musli.Zero.MutableProps.C126_violated_by_uninit
#print axioms Musli.Zero.MutableProps.C126_violated_by_offset
#print axioms Musli.Zero.AlignedProps.C127_alignment
#print axioms Musli.Zero.AlignedProps.C127_to_aligned
#print axioms Musli.Zero.AlignedProps.C127_to_owned
#print axioms Musli.Zero.AlignedProps.C127_same_loads_partial
#print axioms Musli.Zero.AlignedProps.C127_to_owned_size
#print axioms Musli.Zero.AlignedProps.C127_violated_by_wrapping
#print axioms Musli.Zero.RefProps.C128_equal
#print axioms Musli.Zero.RefProps.C128_total
#print axioms Musli.Zero.RefProps.C128_order_partial
#print axioms Musli.Zero.RefProps.C128_to_ne
#print axioms Musli.Zero.RefProps.C128_violated_by_byte_order
#print axioms Musli.Zero.RefProps.C128_full_statement_false
#print axioms Musli.Zero.RefProps.C128_corrected
#print axioms Musli.Zero.RefProps.C128_corrected_equal
#print axioms Musli.Zero.RefProps.C128_corrected_total
#print axioms Musli.Zero.RefProps.C128_corrected_to_endian
#print axioms Musli.Json.C129_same
#print axioms Musli.Json.C129_enough
#print axioms Musli.Json.C129_plain
#print axioms Musli.Json.C129_no_memory
#print axioms Musli.Trace.C130_text
#print axioms Musli.Trace.C130_error_text
#print axioms Musli.Trace.C130_path_partial
#print axioms Musli.Trace.C130_error_partial
#print axioms Musli.Trace.C130_lines_partial
#print axioms Musli.Trace.C130_report_partial
#print axioms Musli.Trace.C130_violated_index
#print axioms Musli.Trace.C130_violated_key
#print axioms Musli.Trace.C130_violated_lines
#print axioms Musli.Trace.C130_violated_transparent
#print axioms Musli.Trace.C130_violated_position
#print axioms Musli.Props.C131_accepts
#print axioms Musli.Props.C131_names_unique
#print axioms Musli.Props.C131_swaps
#print axioms Musli.Props.C131_pairs_partial
#print axioms Musli.Props.C131_without
#print axioms Musli.Props.C131_violated_odd
#print axioms Musli.Props.C131_violated_cycle
#print axioms Musli.Props.C131_corrected
#print axioms Musli.Props.C131_corrected_pairs
#print axioms Musli.Props.C132_parts
#print axioms Musli.Props.C132_literal
#print axioms Musli.Props.C132_text
#print axioms Musli.Props.C132_denotes
#print axioms Musli.Props.C132_keys_partial
#print axioms Musli.Props.C132_map_partial
#print axioms Musli.Props.C132_violated_bytes
#print axioms Musli.Props.C132_violated_replacement
#print axioms Musli.Props.C133_kept
#print axioms Musli.Props.C133_once_partial
#print axioms Musli.Props.C133_nothing_else
#print axioms Musli.Props.C133_error_iff
#print axioms Musli.Props.C133_param
#print axioms Musli.Props.C133_completed
#print axioms Musli.Props.C133_encoder
#print axioms Musli.Props.C133_decoder
#print axioms Musli.Props.C133_visitor
#print axioms Musli.Props.C133_violated_twice
#print axioms Musli.Props.C133_violated_function
#print axioms Musli.Props.C133_violated_mode
#print axioms Musli.Props.C134_types_partial
#print axioms Musli.Props.C134_same_partial
#print axioms Musli.Props.C134_transparent_partial
#print axioms Musli.Props.C134_enum_partial
#print axioms Musli.Props.C134_variant_partial
#print axioms Musli.Props.C134_violated_order
#print axioms Musli.Props.C134_violated_ignored
#print axioms Musli.Props.C134_violated_self
#print axioms Musli.Props.C134_violated_self_types
#print axioms Musli.Props.C134_violated_discriminant
