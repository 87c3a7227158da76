{
 "claims": [
  {
   "property": "C01",
   "status": "proved",
   "theorems": [
    "Dync.C01_veccopy_round_trip"
   ],
   "note": ""
  },
  {
   "property": "C02",
   "status": "proved",
   "theorems": [
    "Dync.C02_veccopy_some_iff",
    "Dync.C02_veccopy_consuming_iff",
    "Dync.C02_veccopy_mismatch",
    "Dync.C02_veccopy_match",
    "Dync.C02_veccopy_append_mismatch",
    "Dync.C02_vecdyn_match",
    "Dync.C02_vecdyn_mismatch"
   ],
   "note": ""
  },
  {
   "property": "C03",
   "status": "proved",
   "theorems": [
    "Dync.C03_elem_fixed",
    "Dync.C03_constructors",
    "Dync.C03_veccopy_program",
    "Dync.C03_vecdyn_program"
   ],
   "note": ""
  },
  {
   "property": "C04",
   "status": "proved",
   "theorems": [
    "Dync.C04_veccopy_zst_panics",
    "Dync.C04_vecdyn_zst_panics",
    "Dync.C04_veccopy_rejects_zst",
    "Dync.C04_veccopy_accepts",
    "Dync.C04_vecdyn_rejects_zst",
    "Dync.C04_vecdyn_from_slice",
    "Dync.C04_vecdyn_with_size"
   ],
   "note": ""
  },
  {
   "property": "C05",
   "status": "proved",
   "theorems": [
    "Dync.C05_veccopy_push_as"
   ],
   "note": ""
  },
  {
   "property": "C06",
   "status": "partial",
   "theorems": [
    "Dync.C06_veccopy_push_partial",
    "Dync.C06_veccopy_push_always_panics",
    "Dync.C06_veccopy_push_refuted",
    "Dync.C06_veccopy_push_other",
    "Dync.C06_vecdyn_push_partial",
    "Dync.C06_vecdyn_push_bad",
    "Dync.C06_vecdyn_push_refuted",
    "Dync.C06_vecdyn_push_mismatch",
    "Dync.C06_vecdyn_push_cloned_partial"
   ],
   "note": "The full claim is false: VecCopy::push panics for every type whose size differs from its alignment (the pushed bytes are cut into units of the alignment), and VecDyn::push frees the box with alignment 1, which is undefined behaviour for alignment > 1. Proved: the exact domain where it works, and what happens outside."
  },
  {
   "property": "C07",
   "status": "partial",
   "theorems": [
    "Dync.C07_veccopy_extend_partial",
    "Dync.C07_veccopy_collect_partial",
    "Dync.C07_veccopy_collect_empty",
    "Dync.C07_veccopy_refuted",
    "Dync.C07_veccopy_extend_mismatch"
   ],
   "note": "False for the same types as C06 (every element goes through push). Proved for types with size = alignment; empty collect and foreign types characterised."
  },
  {
   "property": "C08",
   "status": "partial",
   "theorems": [
    "Dync.C08_veccopy_append_exact",
    "Dync.C08_veccopy_append_partial",
    "Dync.C08_veccopy_append_refuted"
   ],
   "note": "The only obstruction is the capacity bookkeeping of VecVoid (BadGrowth: a buffer whose capacity in alignment units is not a multiple of the element size). Proved whenever this does not occur; refuted with a concrete container. The _exact theorem decides every call on healthy containers."
  },
  {
   "property": "C09",
   "status": "partial",
   "theorems": [
    "Dync.C09_veccopy_resize_exact",
    "Dync.C09_veccopy_resize_partial",
    "Dync.C09_veccopy_resize_refuted",
    "Dync.C09_vecdyn_resize_grow_partial",
    "Dync.C09_vecdyn_resize_grow_ok_partial",
    "Dync.C09_vecdyn_resize_shrink"
   ],
   "note": "As C08 for growing. Shrinking VecDyn is proved without restriction, with arbitrary user code. The _exact theorem decides every call on healthy containers whose new length fits into the address space."
  },
  {
   "property": "C10",
   "status": "proved",
   "theorems": [
    "Dync.C10_veccopy_clear",
    "Dync.C10_veccopy_fill",
    "Dync.C10_vecdyn_clear",
    "Dync.C10_vecdyn_fill"
   ],
   "note": ""
  },
  {
   "property": "C11",
   "status": "partial",
   "theorems": [
    "Dync.C11_slice_rotate",
    "Dync.C11_veccopy_rotate_partial",
    "Dync.C11_veccopy_rotate_inverse",
    "Dync.C11_veccopy_rotate_overaligned",
    "Dync.C11_veccopy_rotate_refuted"
   ],
   "note": "False for alignment > 8192 (the stack-limited dispatch has no arm). Proved for all other types."
  },
  {
   "property": "C12",
   "status": "partial",
   "theorems": [
    "Dync.C12_slice_copy_from_slice",
    "Dync.C12_veccopy_copy_from_slice_partial",
    "Dync.C12_veccopy_copy_from_slice_other_len",
    "Dync.C12_veccopy_refuted",
    "Dync.C12_slice_clone_from_slice"
   ],
   "note": "The documentation of VecCopy::copy_from_slice promises extension; the code panics unless the lengths agree. Proved for equal lengths; every other length panics."
  },
  {
   "property": "C13",
   "status": "partial",
   "theorems": [
    "Dync.C13_veccopy_reserve_exact",
    "Dync.C13_veccopy_reserve_partial",
    "Dync.C13_veccopy_reserve_bad",
    "Dync.C13_veccopy_refuted"
   ],
   "note": "False exactly in the BadGrowth case (e.g. 3-byte elements of alignment 1, capacity 1): std's growth yields a capacity that is no multiple of the element size. Proved otherwise; the bad case is characterised. The _exact theorem decides every call on healthy containers whose new length fits into the address space."
  },
  {
   "property": "C14",
   "status": "partial",
   "theorems": [
    "Dync.C14_veccopy_history_partial",
    "Dync.C14_veccopy_refuted"
   ],
   "note": "Proved for histories in which every step stays in the domain where the single operations are correct; refuted in general by the operations of C06-C13."
  },
  {
   "property": "C15",
   "status": "proved",
   "theorems": [
    "Dync.C15_veccopy_clone",
    "Dync.C15_veccopy_clone_then_drop"
   ],
   "note": ""
  },
  {
   "property": "C16",
   "status": "proved",
   "theorems": [
    "Dync.C16_vecdyn_clone",
    "Dync.C16_vecdyn_clone_into_vec",
    "Dync.C16_slice_clone_into_vec"
   ],
   "note": ""
  },
  {
   "property": "C17",
   "status": "partial",
   "theorems": [
    "Dync.C17_veccopy_history_buffers_partial",
    "Dync.C17_vecdyn_history_partial",
    "Dync.C17_vecdyn_drop"
   ],
   "note": "Proved for all VecDyn programs without the undefined behaviour of C06; the general statement is false because of C19."
  },
  {
   "property": "C18",
   "status": "partial",
   "theorems": [
    "Dync.C18_veccopy_history_no_leak_partial",
    "Dync.C18_vecdyn_history_no_leak_partial",
    "Dync.C18_vecdyn_history_values_partial",
    "Dync.C18_box_downcast_refuted",
    "Dync.C18_box_downcast_leaks",
    "Dync.C18_small_try_new_refuted",
    "Dync.C18_small_downcast_refuted",
    "Dync.C18_clone_panic_refuted",
    "Dync.C18_vecdyn_into_vec_leaks",
    "Dync.C18_vecdyn_into_vec_refuted"
   ],
   "note": "Proved for all programs without failing typed conversions; refuted: a failing BoxValue/SmallValue downcast, SmallValue::try_new and VecDyn::into_vec leak, as does a panicking clone."
  },
  {
   "property": "C19",
   "status": "partial",
   "theorems": [
    "Dync.C19_box_drop_panic",
    "Dync.C19_assign_panic",
    "Dync.C19_vecdyn_drop_panic",
    "Dync.C19_clear_panic_keeps_all",
    "Dync.C19_clear_refuted",
    "Dync.C19_clear_double_drop",
    "Dync.C19_resize_panic_keeps_all",
    "Dync.C19_resize_refuted"
   ],
   "note": "True for drop of containers and values; refuted for clear and resize, which leave dropped elements in the container."
  },
  {
   "property": "C20",
   "status": "partial",
   "theorems": [
    "Dync.C20_box_clone_panic",
    "Dync.C20_vecdyn_clone_panic",
    "Dync.C20_vecdyn_clone_into_vec_panic",
    "Dync.C20_vecdyn_constructors_panic",
    "Dync.C20_push_cloned_loses_content",
    "Dync.C20_push_cloned_refuted",
    "Dync.C20_slice_clone_into_vec_panic"
   ],
   "note": "True for clone, resize, fill, constructors; refuted for push_cloned, which loses the whole content."
  },
  {
   "property": "C21",
   "status": "partial",
   "theorems": [
    "Dync.C21_vecdyn_history_partial",
    "Dync.C21_vecdyn_push_ub",
    "Dync.C21_vecdyn_push_refuted"
   ],
   "note": "Proved for all VecDyn programs except VecDyn::push of a value with alignment > 1, which frees a block with the wrong layout (refutation)."
  },
  {
   "property": "C22",
   "status": "partial",
   "theorems": [
    "Dync.C22_slice_swap",
    "Dync.C22_swap_pointwise",
    "Dync.C22_slice_swap_out_partial",
    "Dync.C22_swap_out_refuted",
    "Dync.C22_swap_wraps",
    "Dync.C22_veccopy_swap"
   ],
   "note": "Exact result for indices in range; out of range it panics except for swap(i, i) and, in release builds, indices whose byte offset wraps around."
  },
  {
   "property": "C23",
   "status": "partial",
   "theorems": [
    "Dync.C23_slice_split_at",
    "Dync.C23_slice_split_at_out_partial",
    "Dync.C23_split_at_out_refuted"
   ],
   "note": "Exact for mid <= len; out of range it panics unless the byte offset wraps around in a release build."
  },
  {
   "property": "C24",
   "status": "partial",
   "theorems": [
    "Dync.C24_slice_chunks_exact_partial",
    "Dync.C24_chunks_exact_refuted",
    "Dync.C24_slice_chunks_exact_mut"
   ],
   "note": "Exact unless k * element size overflows in a release build."
  },
  {
   "property": "C25",
   "status": "partial",
   "theorems": [
    "Dync.C25_subslice_partial",
    "Dync.C25_subslice_out_partial",
    "Dync.C25_subslice_inclusive",
    "Dync.C25_refuted",
    "Dync.C25_inclusive_len_panics"
   ],
   "note": "Exact for half-open ranges; inclusive ranges stop inside an element (exact result given), which makes later calls panic."
  },
  {
   "property": "C26",
   "status": "proved",
   "theorems": [
    "Dync.C26_veccopy_mut",
    "Dync.C26_slice_mut",
    "Dync.C26_slice_from_slice",
    "Dync.C26_slice",
    "Dync.C26_veccopy",
    "Dync.C26_vecdyn",
    "Dync.C26_slice_is_empty",
    "Dync.C26_slice_reborrow",
    "Dync.C26_slice_copy_into_vec",
    "Dync.C26_veccopy_as_slice",
    "Dync.C26_veccopy_get_unchecked"
   ],
   "note": ""
  },
  {
   "property": "C27",
   "status": "partial",
   "theorems": [
    "Dync.C27_get_as",
    "Dync.C27_veccopy_get_as",
    "Dync.C27_veccopy_get_mut_as",
    "Dync.C27_slice_get_partial",
    "Dync.C27_veccopy_get_debug_partial",
    "Dync.C27_slice_rotate_partial",
    "Dync.C27_get_ref_release_ub",
    "Dync.C27_get_release_wraps",
    "Dync.C27_refuted",
    "Dync.C27_vecdyn_get_partial"
   ],
   "note": "Proved for typed access and for debug builds; refuted in release builds (get_ref is undefined behaviour, byte offsets wrap around)."
  },
  {
   "property": "C28",
   "status": "partial",
   "theorems": [
    "Dync.C28_vecdyn_eq_is_zip",
    "Dync.C28_vecdyn_eq_partial",
    "Dync.C28_refuted",
    "Dync.C28_transitive_refuted",
    "Dync.C28_vecdyn_refl_symm",
    "Dync.C28_slice_eq_is_zip"
   ],
   "note": "The code compares the common prefix only. Exact characterisation, reflexivity and symmetry proved; full claim and transitivity refuted."
  },
  {
   "property": "C29",
   "status": "partial",
   "theorems": [
    "Dync.C29_value_hash",
    "Dync.C29_values_equal_hash",
    "Dync.C29_vecdyn_hash",
    "Dync.C29_vecdyn_partial",
    "Dync.C29_vecdyn_refuted"
   ],
   "note": "True for values; for containers refuted by C28, true if the lengths agree."
  },
  {
   "property": "C30",
   "status": "partial",
   "theorems": [
    "Dync.C30_value_ref_eq",
    "Dync.C30_value_eq",
    "Dync.C30_value_eq_refl",
    "Dync.C30_value_eq_symm",
    "Dync.C30_value_eq_trans",
    "Dync.C30_eq_impl_refuted"
   ],
   "note": "The characterisation and the three laws are proved; marked partial because the crate implements Eq for values whose table has only PartialEq, so reflexivity can fail (refutation)."
  },
  {
   "property": "C31",
   "status": "proved",
   "theorems": [
    "Dync.C31_box_new",
    "Dync.C31_box_downcast",
    "Dync.C31_box_drop",
    "Dync.C31_box_clone",
    "Dync.C31_box_life_cycle"
   ],
   "note": ""
  },
  {
   "property": "C32",
   "status": "partial",
   "theorems": [
    "Dync.C32_small_try_new",
    "Dync.C32_small_new",
    "Dync.C32_small_downcast",
    "Dync.C32_small_drop",
    "Dync.C32_small_clone",
    "Dync.C32_clone_small_wrong_size",
    "Dync.C32_fits_refuted"
   ],
   "note": "Exact: succeeds iff the size is 8. The documented 'fits into a usize' is refuted for smaller sizes."
  },
  {
   "property": "C33",
   "status": "proved",
   "theorems": [
    "Dync.C33_swap",
    "Dync.C33_assign_box",
    "Dync.C33_assign_small",
    "Dync.C33_assign_mismatch",
    "Dync.C33_clone_from_other",
    "Dync.C33_box_as_mut",
    "Dync.C33_small_as_mut"
   ],
   "note": ""
  },
  {
   "property": "C34",
   "status": "proved",
   "theorems": [
    "Dync.C34_copy",
    "Dync.C34_swap",
    "Dync.C34_hypotheses"
   ],
   "note": ""
  },
  {
   "property": "C35",
   "status": "proved",
   "theorems": [
    "Dync.C35_veccopy_upcast",
    "Dync.C35_slice_upcast",
    "Dync.C35_vecdyn_upcast_drop",
    "Dync.C35_veccopy_upcast_iter",
    "Dync.C35_value_upcast",
    "Dync.C35_copy_ref_as_value"
   ],
   "note": ""
  },
  {
   "property": "C36",
   "status": "proved",
   "theorems": [
    "Dync.C36_dync_trait",
    "Dync.C36_dync_mod",
    "Dync.C36_builtin_drop",
    "Dync.C36_builtin_functions"
   ],
   "note": ""
  },
  {
   "property": "C37",
   "status": "partial",
   "theorems": [
    "Dync.C37_dync_trait_partial",
    "Dync.C37_dync_trait_refuted",
    "Dync.C37_dync_mod",
    "Dync.C37_upcast_to_std"
   ],
   "note": "Proved for dync_mod and for dync_trait without Eq as a supertrait lacking PartialEq; refuted there: the generated conversion calls a function the table lacks."
  },
  {
   "property": "C38",
   "status": "partial",
   "theorems": [
    "Dync.C38_dync_mod",
    "Dync.C38_declaration_order",
    "Dync.C38_refuted_shadow",
    "Dync.C38_refuted_self_path"
   ],
   "note": "Proved for all modules with unambiguous names; refuted for shadowed std names and for self:: paths."
  },
  {
   "property": "C39",
   "status": "partial",
   "theorems": [
    "Dync.C39_dync_trait_partial",
    "Dync.C39_refuted",
    "Dync.C39_refuted_leading_colon"
   ],
   "note": "Proved: the exact set of spellings that are recognised; all other spellings of std traits are silently ignored (refutation)."
  },
  {
   "property": "C40",
   "status": "partial",
   "theorems": [
    "Dync.C40_dispatch",
    "Dync.C40_dispatch_limited_partial",
    "Dync.C40_limited_refuted"
   ],
   "note": "The full dispatch is total and exact; the stack-limited one fails above 8192 (refutation)."
  },
  {
   "property": "C41",
   "status": "proved",
   "theorems": [
    "Dync.C41_elem_info",
    "Dync.C41_from_value"
   ],
   "note": ""
  },
  {
   "property": "C42",
   "status": "proved",
   "theorems": [
    "Dync.C42_veccopy_numeric",
    "Dync.C42_veccopy_other",
    "Dync.C42_vecdyn_numeric",
    "Dync.C42_vecdyn_other",
    "Dync.C42_ranges",
    "Dync.C42_decode_range",
    "Dync.C42_integers"
   ],
   "note": ""
  },
  {
   "property": "C43",
   "status": "partial",
   "theorems": [
    "Dync.C43_refuted_shared",
    "Dync.C43_refuted_value_ref",
    "Dync.C43_refuted_slice_copy",
    "Dync.C43_send_sync_partial",
    "Dync.C43_exact",
    "Dync.C43_generated",
    "Dync.C43_refuted_shadow"
   ],
   "note": "Exact table of what is Send/Sync; refuted for Slice, ValueRef, SliceCopy, SliceCopyMut and for a user trait named Send."
  },
  {
   "property": "C44",
   "status": "partial",
   "theorems": [
    "Dync.C44_translate_partial",
    "Dync.C44_unchanged",
    "Dync.C44_self",
    "Dync.C44_generic",
    "Dync.C44_header",
    "Dync.C44_refuted_option",
    "Dync.C44_refuted_tuple",
    "Dync.C44_refuted_slice",
    "Dync.C44_refuted_assoc",
    "Dync.C44_refuted_bound",
    "Dync.C44_std_traits"
   ],
   "note": "Proved for the type constructors the macro handles; refuted for Option<Self>, tuples, slices, associated types and trait bounds."
  },
  {
   "property": "C45",
   "status": "partial",
   "theorems": [
    "Dync.C45_veccopy_history_partial",
    "Dync.C45_vecdyn_history_partial",
    "Dync.C45_veccopy_partial",
    "Dync.C45_rotate_loses_content",
    "Dync.C45_rotate_refuted",
    "Dync.C45_default_drops",
    "Dync.C45_vecdyn_default_drop_panics",
    "Dync.C45_vecdyn_rotate_aborts"
   ],
   "note": "Refuted by rotate with an amount out of range, which replaces the content by an empty vector of () (exact post state given). C91 lists all calls that lose the content and proves that all others keep it."
  },
  {
   "property": "C46",
   "status": "proved",
   "theorems": [
    "Dync.C46_meta_views",
    "Dync.C46_with_type_from",
    "Dync.C46_meta"
   ],
   "note": ""
  },
  {
   "property": "C47",
   "status": "proved",
   "theorems": [
    "Dync.C47_value_raw_parts",
    "Dync.C47_raw_parts_veccopy",
    "Dync.C47_raw_parts_slicecopy"
   ],
   "note": ""
  },
  {
   "property": "C48",
   "status": "proved",
   "theorems": [
    "Dync.C48_slice_chunks_exact_mut",
    "Dync.C48_slice_chunks_exact_mut_map",
    "Dync.C48_vecdyn_iter_mut",
    "Dync.C48_slice_get_mut",
    "Dync.C48_slice_set_as",
    "Dync.C48_slice_iter_mut",
    "Dync.C48_slice_iter_mut_map",
    "Dync.C48_slice_subslice_mut",
    "Dync.C48_slice_split_at_mut",
    "Dync.C48_slice_as_slice_mut",
    "Dync.C48_veccopy_get_mut_as",
    "Dync.C48_veccopy_get_mut",
    "Dync.C48_veccopy_iter_mut",
    "Dync.C48_veccopy_as_mut_slice_as",
    "Dync.C48_veccopy_as_mut_slice",
    "Dync.C48_vecdyn_get_mut"
   ],
   "note": ""
  },
  {
   "property": "C49",
   "status": "proved",
   "theorems": [
    "Dync.C49_display"
   ],
   "note": ""
  },
  {
   "property": "C50",
   "status": "partial",
   "theorems": [
    "Dync.C50_sink_error_panics",
    "Dync.C50_other_type_prints",
    "Dync.C50_refuted_sink_error",
    "Dync.C50_refuted_stdout"
   ],
   "note": "Refuted; the theorems give the exact behaviour."
  },
  {
   "property": "C51",
   "status": "partial",
   "theorems": [
    "Dync.C51_refuted"
   ],
   "note": "Refuted: usize and isize are not in the dispatch list, the result is empty."
  },
  {
   "property": "C52",
   "status": "partial",
   "theorems": [
    "Dync.C52_inverted",
    "Dync.C52_refuted",
    "Dync.C52_params",
    "Dync.C52_where",
    "Dync.C52_accepted_partial",
    "Dync.C52_accepted_iff",
    "Dync.C52_check_iff"
   ],
   "note": "Refuted: the check asserts the opposite of what is meant. Proved: the exact set of accepted argument types."
  },
  {
   "property": "C53",
   "status": "proved",
   "theorems": [
    "Dync.C53_vecdyn_history"
   ],
   "note": ""
  },
  {
   "property": "C54",
   "status": "proved",
   "theorems": [
    "Dync.C54_vecdyn_caught_history"
   ],
   "note": ""
  },
  {
   "property": "C55",
   "status": "proved",
   "theorems": [
    "Dync.C55_vecdyn_all_dropped",
    "Dync.C55_vecdyn_values_conserved"
   ],
   "note": ""
  },
  {
   "property": "C56",
   "status": "proved",
   "theorems": [
    "Dync.C56_vecdyn_debug",
    "Dync.C56_slice_debug",
    "Dync.C56_value_debug"
   ],
   "note": ""
  },
  {
   "property": "C57",
   "status": "partial",
   "theorems": [
    "Dync.C57_clone_from_partial",
    "Dync.C57_clone_from_keeps_type",
    "Dync.C57_clone_from_refuted",
    "Dync.C57_clone_from_other_align"
   ],
   "note": "True if the element types agree; otherwise the destination keeps its own type (refutation)."
  },
  {
   "property": "C58",
   "status": "partial",
   "theorems": [
    "Dync.C58_round_trip",
    "Dync.C58_into_keeps",
    "Dync.C58_wrong_table_partial",
    "Dync.C58_from_iff",
    "Dync.C58_wrong_table_refuted",
    "Dync.C58_from_dyn_expands",
    "Dync.C58_into_dyn_expands",
    "Dync.C58_macros_refuted",
    "Dync.C58_into_dyn_slice_types",
    "Dync.C58_from_dyn_only",
    "Dync.C58_into_dyn_only"
   ],
   "note": "Conversions proved exact; the macros reject documented forms (refutation), the set of accepted inputs is characterised."
  },
  {
   "property": "C59",
   "status": "partial",
   "theorems": [
    "Dync.C59_exact",
    "Dync.C59_elided_independent",
    "Dync.C59_kinds",
    "Dync.C59_refuted",
    "Dync.C59_programs_partial",
    "Dync.C59_programs_exclusive",
    "Dync.C59_programs_refuted"
   ],
   "note": "Proved for all functions but Slice::from_slice and SliceCopy::from_slice, whose result lifetime is unbounded (refutation)."
  },
  {
   "property": "C60",
   "status": "partial",
   "theorems": [
    "Dync.C60_raw_box_exact",
    "Dync.C60_raw_box_partial",
    "Dync.C60_raw_box_refuted",
    "Dync.C60_bytes_overwrite",
    "Dync.C60_bytes_refuted"
   ],
   "note": "Refuted; exact condition under which dropping raw parts is undefined."
  },
  {
   "property": "C61",
   "status": "partial",
   "theorems": [
    "Dync.C61_unforged_partial",
    "Dync.C61_forged_refuted",
    "Dync.C61_forged_drop_refuted"
   ],
   "note": "True as long as Meta values are not built by hand; Meta has public fields, so safe code can forge one (refutation)."
  },
  {
   "property": "C62",
   "status": "partial",
   "theorems": [
    "Dync.C62_table_ref",
    "Dync.C62_take",
    "Dync.C62_eq_partial",
    "Dync.C62_eq_refuted",
    "Dync.C62_clone_eq"
   ],
   "note": "All but equality of a borrowed with an owned reference."
  },
  {
   "property": "C63",
   "status": "proved",
   "theorems": [
    "Dync.C63_dync_mod",
    "Dync.C63_dync_trait",
    "Dync.C63_mod_clash",
    "Dync.C63_mod_generics",
    "Dync.C63_trait_eq_alone"
   ],
   "note": ""
  },
  {
   "property": "C64",
   "status": "proved",
   "theorems": [
    "Dync.C64_dync_trait",
    "Dync.C64_dync_mod",
    "Dync.C64_hygiene",
    "Dync.C64_unsafe_impls",
    "Dync.C64_hygiene_trait",
    "Dync.C64_dync_mod_empty",
    "Dync.C64_made_for",
    "Dync.C64_suffix_ignored",
    "Dync.C64_shadowed"
   ],
   "note": ""
  },
  {
   "property": "C65",
   "status": "proved",
   "theorems": [
    "Dync.C65_depth",
    "Dync.C65_returns_iff"
   ],
   "note": ""
  },
  {
   "property": "C66",
   "status": "proved",
   "theorems": [
    "Dync.C66_drop",
    "Dync.C66_clone",
    "Dync.C66_clone_from",
    "Dync.C66_clone_into_raw",
    "Dync.C66_clone_into_raw_len",
    "Dync.C66_pure"
   ],
   "note": ""
  },
  {
   "property": "C67",
   "status": "partial",
   "theorems": [
    "Dync.C67_programs_partial",
    "Dync.C67_debug_partial",
    "Dync.C67_programs_drop",
    "Dync.C67_refuted_rotate_inclusive",
    "Dync.C67_refuted_push_unit",
    "Dync.C67_refuted_get_wraps",
    "Dync.C67_refuted_get_ref"
   ],
   "note": "Proved for all programs but those with the four listed operations; each of these is refuted by a concrete program."
  },
  {
   "property": "C68",
   "status": "proved",
   "theorems": [
    "Dync.C68_get_debug",
    "Dync.C68_get_release",
    "Dync.C68_power_of_two",
    "Dync.C68_get_whole_iff",
    "Dync.C68_split_at_debug",
    "Dync.C68_split_at_release",
    "Dync.C68_chunks_exact_release",
    "Dync.C68_chunks_exact_debug",
    "Dync.C68_rotate_debug",
    "Dync.C68_rotate_release",
    "Dync.C68_subslice_release",
    "Dync.C68_get_ref_release",
    "Dync.C68_swap_release",
    "Dync.C68_get_mut_release",
    "Dync.C68_swap_debug",
    "Dync.C68_subslice_debug",
    "Dync.C68_vecdyn_get_release"
   ],
   "note": ""
  },
  {
   "property": "C69",
   "status": "partial",
   "theorems": [
    "Dync.C69_programs_partial",
    "Dync.C69_debug_partial",
    "Dync.C69_quiet_partial",
    "Dync.C69_clear_refuted",
    "Dync.C69_resize_refuted",
    "Dync.C69_push_alignment_refuted",
    "Dync.C69_push_unit_refuted",
    "Dync.C69_get_wraps_refuted"
   ],
   "note": "Proved for all programs but those with the listed operations (clear/resize with a panicking destructor, push of a BoxValue of alignment other than 1, the type (), and wrapping indices in release builds); each of these is refuted by a concrete program."
  },
  {
   "property": "C70",
   "status": "proved",
   "theorems": [
    "Dync.C70_program",
    "Dync.C70_step",
    "Dync.C70_start",
    "Dync.C70_ub_iff",
    "Dync.C70_blocks",
    "Dync.C70_torn_iff",
    "Dync.C70_leaks_iff",
    "Dync.C70_rotateLeft",
    "Dync.C70_rotateLeft_lost",
    "Dync.C70_ub_debug",
    "Dync.C70_ok_keeps"
   ],
   "note": ""
  },
  {
   "property": "C71",
   "status": "proved",
   "theorems": [
    "Dync.C71_frame",
    "Dync.C71_step",
    "Dync.C71_program",
    "Dync.C71_start",
    "Dync.C71_ub_iff",
    "Dync.C71_defined",
    "Dync.C71_blocks",
    "Dync.C71_place",
    "Dync.C71_no_place"
   ],
   "note": ""
  },
  {
   "property": "C72",
   "status": "proved",
   "theorems": [
    "Dync.C72_values",
    "Dync.C72_blocks",
    "Dync.C72_nothing_lost",
    "Dync.C72_wrap"
   ],
   "note": ""
  },
  {
   "property": "C73",
   "status": "proved",
   "theorems": [
    "Dync.C73_valid",
    "Dync.C73_exceptions"
   ],
   "note": ""
  },
  {
   "property": "C74",
   "status": "proved",
   "theorems": [
    "Dync.C74_view",
    "Dync.C74_container",
    "Dync.C74_step"
   ],
   "note": ""
  },
  {
   "property": "C75",
   "status": "proved",
   "theorems": [
    "Dync.C75_view",
    "Dync.C75_container",
    "Dync.C75_step",
    "Dync.C75_units"
   ],
   "note": ""
  },
  {
   "property": "C76",
   "status": "proved",
   "theorems": [
    "Dync.C76_view",
    "Dync.C76_elements",
    "Dync.C76_container"
   ],
   "note": ""
  },
  {
   "property": "C77",
   "status": "proved",
   "theorems": [
    "Dync.C77_tables",
    "Dync.C77_wrong_length",
    "Dync.C77_vec_eq",
    "Dync.C77_vec_eq_types",
    "Dync.C77_pure_eq",
    "Dync.C77_slice_eq",
    "Dync.C77_value_eq",
    "Dync.C77_vec_hash",
    "Dync.C77_value_hash",
    "Dync.C77_vec_debug",
    "Dync.C77_slice_debug",
    "Dync.C77_vec_debug_text",
    "Dync.C77_vec_debug_pretty",
    "Dync.C77_vec_debug_stop",
    "Dync.C77_value_debug"
   ],
   "note": ""
  },
  {
   "property": "C78",
   "status": "proved",
   "theorems": [
    "Dync.C78_step",
    "Dync.C78_program",
    "Dync.C78_from_start",
    "Dync.C78_all_freed",
    "Dync.C78_views",
    "Dync.C78_own_views",
    "Dync.C78_tables_kept",
    "Dync.C78_losses_happen"
   ],
   "note": ""
  },
  {
   "property": "C79",
   "status": "proved",
   "theorems": [
    "Dync.C79_step",
    "Dync.C79_hash",
    "Dync.C79_fmt",
    "Dync.C79_program",
    "Dync.C79_defined"
   ],
   "note": ""
  },
  {
   "property": "C80",
   "status": "proved",
   "theorems": [
    "Dync.C80_threads",
    "Dync.C80_ends_iff",
    "Dync.C80_schedules",
    "Dync.C80_thread_local"
   ],
   "note": ""
  },
  {
   "property": "C81",
   "status": "proved",
   "theorems": [
    "Dync.C81_machine",
    "Dync.C81_reorder",
    "Dync.C81_ends_iff"
   ],
   "note": ""
  },
  {
   "property": "C82",
   "status": "proved",
   "theorems": [
    "Dync.C82_step",
    "Dync.C82_program",
    "Dync.C82_ub_iff",
    "Dync.C82_extend",
    "Dync.C82_collect"
   ],
   "note": ""
  },
  {
   "property": "C83",
   "status": "proved",
   "theorems": [
    "Dync.C83_program",
    "Dync.C83_defined",
    "Dync.C83_copy_program",
    "Dync.C83_threads",
    "Dync.C83_ends_iff",
    "Dync.C83_schedules"
   ],
   "note": ""
  },
  {
   "property": "C84",
   "status": "proved",
   "theorems": [
    "Dync.C84_step",
    "Dync.C84_program",
    "Dync.C84_extend",
    "Dync.C84_extend_lost",
    "Dync.C84_collect",
    "Dync.C84_defined",
    "Dync.C84_bound",
    "Dync.C84_list"
   ],
   "note": ""
  },
  {
   "property": "C85",
   "status": "proved",
   "theorems": [
    "Dync.C85_views",
    "Dync.C85_untouched",
    "Dync.C85_commute",
    "Dync.C85_containers"
   ],
   "note": ""
  },
  {
   "property": "C86",
   "status": "proved",
   "theorems": [
    "Dync.C86_views",
    "Dync.C86_accesses",
    "Dync.C86_untouched",
    "Dync.C86_moves",
    "Dync.C86_containers"
   ],
   "note": ""
  },
  {
   "property": "C87",
   "status": "proved",
   "theorems": [
    "Dync.C87_no_race",
    "Dync.C87_result",
    "Dync.C87_outside",
    "Dync.C87_ends",
    "Dync.C87_all",
    "Dync.C87_schedules",
    "Dync.C87_possible",
    "Dync.C87_parts",
    "Dync.C87_containers"
   ],
   "note": ""
  },
  {
   "property": "C88",
   "status": "proved",
   "theorems": [
    "Dync.C88_contract",
    "Dync.C88_unchecked_iff",
    "Dync.C88_unchecked_any_allocator"
   ],
   "note": ""
  },
  {
   "property": "C89",
   "status": "partial",
   "theorems": [
    "Dync.C89_plain_partial",
    "Dync.C89_typed_partial",
    "Dync.C89_refuted_downcast",
    "Dync.C89_refuted_cell_write",
    "Dync.C89_refuted_view",
    "Dync.C89_refuted_held_view",
    "Dync.C89_refuted"
   ],
   "note": "The full claim is false for element types with interior mutability: references to them made from views, value references or in virtual tables come from references to plain bytes. Proved: no program breaks the rules for other element types, nor for any type if typed references are taken from containers; the ways to break them, for every container, element and cell."
  },
  {
   "property": "C90",
   "status": "proved",
   "theorems": [
    "Dync.C90_no_race",
    "Dync.C90_result",
    "Dync.C90_outside",
    "Dync.C90_ends",
    "Dync.C90_all",
    "Dync.C90_schedules",
    "Dync.C90_possible",
    "Dync.C90_parts",
    "Dync.C90_containers"
   ],
   "note": ""
  },
  {
   "property": "C91",
   "status": "proved",
   "theorems": [
    "Dync.C91_lost",
    "Dync.C91_kept",
    "Dync.C91_emptied",
    "Dync.C91_iff",
    "Dync.C91_vecdyn_lost",
    "Dync.C91_vecdyn_iff",
    "Dync.C91_vecdyn_kept",
    "Dync.C91_vecdyn_emptied"
   ],
   "note": "For VecDyn the part on calls that keep the content is for user code that does not panic (what remains after a panic of user code is C54 and C71)."
  },
  {
   "property": "C92",
   "status": "proved",
   "theorems": [
    "Dync.C92_veccopy_reserve_fits",
    "Dync.C92_veccopy_reserve",
    "Dync.C92_veccopy_append_fits",
    "Dync.C92_veccopy_append",
    "Dync.C92_veccopy_clone",
    "Dync.C92_veccopy_with_type_from",
    "Dync.C92_veccopy_push_as",
    "Dync.C92_veccopy_push_as_full",
    "Dync.C92_veccopy_resize_fits",
    "Dync.C92_veccopy_resize",
    "Dync.C92_veccopy_from_vec",
    "Dync.C92_veccopy_with_capacity",
    "Dync.C92_veccopy_with_type",
    "Dync.C92_veccopy_from_slice",
    "Dync.C92_veccopy_with_size",
    "Dync.C92_harmless_reserve",
    "Dync.C92_harmless_resize",
    "Dync.C92_harmless_append",
    "Dync.C92_harmless_clone",
    "Dync.C92_harmless_with_type_from",
    "Dync.C92_doubling_whole",
    "Dync.C92_std_splits_iff",
    "Dync.C92_reserve_needs_more",
    "Dync.C92_clone_needs_more"
   ],
   "note": "VecDyn uses the same reserve and append; its clone goes through the shallow clone treated here."
  },
  {
   "property": "C93",
   "status": "proved",
   "theorems": [
    "Dync.C93_from_vec",
    "Dync.C93_with_type",
    "Dync.C93_veccopy_from_slice",
    "Dync.C93_veccopy_with_size",
    "Dync.C93_vecdyn_from_slice",
    "Dync.C93_vecdyn_with_size",
    "Dync.C93_with_type_from",
    "Dync.C93_veccopy_clone",
    "Dync.C93_vecdyn_clone",
    "Dync.C93_others_kept",
    "Dync.C93_upcast",
    "Dync.C93_earlier_panic",
    "Dync.C93_box_new",
    "Dync.C93_small_new",
    "Dync.C93_value_upcast",
    "Dync.C93_clone_value",
    "Dync.C93_clone_small_value",
    "Dync.C93_upcast_loses",
    "Dync.C93_value_upcast_loses"
   ],
   "note": "The effects of table code on user state are arbitrary; it does not call back into the container that is being made."
  },
  {
   "property": "C94",
   "status": "partial",
   "theorems": [
    "Dync.C94_drop_as_aligned_exact",
    "Dync.C94_drop_as_aligned_partial",
    "Dync.C94_drop_refuted",
    "Dync.C94_table_partial",
    "Dync.C94_table_refuted",
    "Dync.C94_table_drop_refuted"
   ],
   "note": "Refuted for drop_as_aligned (any supported alignment but that of the memory, not above the number of bytes) and for tables (a safe implementation of VTable may return the functions of another type). Proved: exactly when drop_as_aligned is undefined and what it does otherwise; the table part for implementations that pick the type itself."
  },
  {
   "property": "C95",
   "status": "proved",
   "theorems": [
    "Dync.C95_step",
    "Dync.C95_amortised",
    "Dync.C95_bounded",
    "Dync.C95_vecdyn_bounded",
    "Dync.C95_vecdyn_step",
    "Dync.C95_vecdyn_amortised"
   ],
   "note": "The policy of Vec is that of section 3 of DESIGN.md (at least double; C92 treats others). Growth is counted per call; only a VecDyn resize whose number of units wraps around in a release build may move the buffer more than once in one call."
  },
  {
   "property": "C96",
   "status": "proved",
   "theorems": [
    "Dync.C96_step",
    "Dync.C96_quiet",
    "Dync.C96_stays",
    "Dync.C96_pushes",
    "Dync.C96_vecdyn_step",
    "Dync.C96_vecdyn_stays"
   ],
   "note": "Every reallocation of the model moves to a fresh block, so 'in the same buffer' does not depend on what the allocator's realloc does. A container whose content was lost in a panic (only values () are left of it) has no buffer; reserve on it allocates, panics and leaks (C70), which is why the theorem on the allocator speaks of containers with content."
  },
  {
   "property": "C97",
   "status": "proved",
   "theorems": [
    "Dync.C97_same_call",
    "Dync.C97_clone_from_other",
    "Dync.C97_never_too_large",
    "Dync.C97_text",
    "Dync.C97_wording",
    "Dync.C97_lines"
   ],
   "note": "C97_same_call links the function with its error to the one that the other theorems use. ValueTooLarge is returned by no function of the crate. A formatter that fails and the derived Debug of Error are not modelled."
  },
  {
   "property": "C98",
   "status": "proved",
   "theorems": [
    "Dync.C98_program",
    "Dync.C98_safe",
    "Dync.C98_nothing_left",
    "Dync.C98_drop",
    "Dync.C98_clone",
    "Dync.C98_clear_panic",
    "Dync.C98_clear_condition"
   ],
   "note": "Elements are VecDyn with a table for Drop and Clone. Each level has an address space of its own; the byte image of a container tells which container it is (two live ones differ, since their buffers do). The process is taken to end when there is no image left for a new container or a buffer would exceed the address space. What a panic in Drop or Clone leaks is counted in C100. Runs in which the user's Drop panics inside clear are excluded (ClearsCalmly; panics elsewhere are not); C98_clear_panic says what it leads to. Other functions of nested containers are not part of the programs; PartialEq, Hash and Debug are those of C99."
  },
  {
   "property": "C99",
   "status": "proved",
   "theorems": [
    "Dync.C99_eq",
    "Dync.C99_hash",
    "Dync.C99_hash_shape",
    "Dync.C99_debug",
    "Dync.C99_debug_text",
    "Dync.C99_debug_pretty",
    "Dync.C99_unchanged",
    "Dync.C99_eq_pure",
    "Dync.C99_clone_equal",
    "Dync.C99_program"
   ],
   "note": "The containers of C98 have a table with Drop and Clone only; the entries for PartialEq, Hash and Debug are added where they are used, as with_type builds them for the same type. That lengths are not compared is the behaviour of the code (C28); the property says so."
  },
  {
   "property": "C100",
   "status": "proved",
   "theorems": [
    "Dync.C100_program",
    "Dync.C100_leaks",
    "Dync.C100_no_leaks",
    "Dync.C100_leaks_panic",
    "Dync.C100_drop_leaks",
    "Dync.C100_drop",
    "Dync.C100_drop_all",
    "Dync.C100_drop_panic",
    "Dync.C100_clone",
    "Dync.C100_clone_all",
    "Dync.C100_clone_panic"
   ],
   "note": "The containers and programs of C98, with its restrictions (ClearsCalmly). C100_program is about programs in which no action panics, C100_leaks about all of them. C100_drop and C100_clone are about any state that such programs reach, also after panics; that a panic inside clear leads to more than leaks is in C98_clear_panic."
  }
 ]
}