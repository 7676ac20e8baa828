{
 "claims": [
  {
   "property": "C01",
   "status": "partial",
   "theorems": [
    "Mdds.FST.C01_insert_pointwise_partial",
    "Mdds.FST.C01_flag_is_function_change",
    "Mdds.FST.C01_insert_ub_iff",
    "Mdds.FST.C01_insert_fails",
    "Mdds.FST.no_ub_partial"
   ],
   "note": "False as stated for exactly one family of ranges: start < min and end = min is accepted and dereferences a null pointer (C01_insert_ub_iff, C01_insert_fails). Proved for all other ranges, values and reachable containers."
  },
  {
   "property": "C02",
   "status": "partial",
   "theorems": [
    "Mdds.FST.C02_sorted_in_range",
    "Mdds.FST.C02_maximal_partial",
    "Mdds.FST.C02_shiftLeft_maximal_iff",
    "Mdds.FST.C02_maximal_fails"
   ],
   "note": "Sorted and in range: all histories. Maximality is false after shift_left(s, max) in exactly the situation of C02_shiftLeft_maximal_iff; proved for all histories without a shift_left ending at max."
  },
  {
   "property": "C03",
   "status": "partial",
   "theorems": [
    "Mdds.FST.C03_equality_partial",
    "Mdds.FST.C03_equal_same_function",
    "Mdds.FST.C03_equality_fails"
   ],
   "note": "Equal implies same function: always. The converse is false for containers with redundant segments (after the shift_left defect); proved when segments are maximal."
  },
  {
   "property": "C04",
   "status": "proved",
   "theorems": [
    "Mdds.FST.C04_search",
    "Mdds.FST.C04_segment_is_maximal",
    "Mdds.FST.C04_search_with_position",
    "Mdds.FST.C04_search_iterator_partial",
    "Mdds.FST.C04_search_iterator_fails"
   ],
   "note": "search(key,...) and search(pos,key,...) exact for all reachable containers. The iterator-returning overload search(pos,key) is right only if pos is not after the key (witness of the contrary included)."
  },
  {
   "property": "C05",
   "status": "proved",
   "theorems": [
    "Mdds.FST.C05_tree_search",
    "Mdds.FST.C05_tree_validity"
   ],
   "note": "Outcome equality with linear search in every reachable state with a valid tree, at any number of leaves."
  },
  {
   "property": "C06",
   "status": "proved",
   "theorems": [
    "Mdds.FST.C06_insert_hint",
    "Mdds.FST.C06_returned_position"
   ],
   "note": ""
  },
  {
   "property": "C07",
   "status": "proved",
   "theorems": [
    "Mdds.FST.C07_shift_left"
   ],
   "note": "The stored representation can be redundant afterwards, see C02."
  },
  {
   "property": "C08",
   "status": "proved",
   "theorems": [
    "Mdds.FST.C08_shift_right"
   ],
   "note": ""
  },
  {
   "property": "C09",
   "status": "proved",
   "theorems": [
    "Mdds.FST.C09_iteration",
    "Mdds.FST.C09_segments",
    "Mdds.FST.C09_to_segment"
   ],
   "note": ""
  },
  {
   "property": "C10",
   "status": "proved",
   "theorems": [
    "Mdds.FST.C10_copy",
    "Mdds.FST.C10_clear",
    "Mdds.FST.C10_swap_assign"
   ],
   "note": "Independence of a copy is a modelling fact (values are immutable); the code allocates new nodes."
  },
  {
   "property": "C11",
   "status": "proved",
   "theorems": [
    "Mdds.SegTree.C11_search_exact",
    "Mdds.SegTree.C11_search_no_duplicates",
    "Mdds.SegTree.C11_iterate_results",
    "Mdds.SegTree.C11_decrement_undoes_increment",
    "Mdds.SegTree.C11_search_invalid_empty"
   ],
   "note": "All histories of insert/build/erase/erase_if/clear/copy, any number of segments."
  },
  {
   "property": "C12",
   "status": "proved",
   "theorems": [
    "Mdds.SegTree.C12_eraseIf",
    "Mdds.SegTree.C12_eraseAt",
    "Mdds.SegTree.C12_search_after_eraseIf",
    "Mdds.SegTree.C12_search_after_eraseAt",
    "Mdds.SegTree.C12_rebuild_same_answers"
   ],
   "note": ""
  },
  {
   "property": "C13",
   "status": "partial",
   "theorems": [
    "Mdds.SegTree.C13_insert",
    "Mdds.SegTree.C13_stored_nonempty",
    "Mdds.SegTree.C13_size",
    "Mdds.SegTree.C13_build",
    "Mdds.SegTree.C13_clear_copy",
    "Mdds.SegTree.C13_boundary_keys",
    "Mdds.SegTree.C13_leaf_keys",
    "Mdds.SegTree.C13_leaf_size",
    "Mdds.SegTree.C13_run_defined",
    "Mdds.SegTree.C13_leaf_size_empty_fails",
    "Mdds.SegTree.C13_moved_from_fails"
   ],
   "note": "Proved except for two defects: leaf_size() of an empty container is 1, and a moved-from container keeps a valid flag with a dangling root."
  },
  {
   "property": "C14",
   "status": "partial",
   "theorems": [
    "Mdds.SegTree.C14_eq_multiset_fails",
    "Mdds.SegTree.C14_eq_ignores_validity_fails",
    "Mdds.SegTree.C14_copy_eq_fails",
    "Mdds.SegTree.C14_eq_characterization",
    "Mdds.SegTree.C14_eq_iff_perm_partial",
    "Mdds.SegTree.C14_copy_eq_partial"
   ],
   "note": "False as stated (three witnesses). Exact characterisation of operator== and the condition under which it is equality of contents are proved."
  },
  {
   "property": "C15",
   "status": "proved",
   "theorems": [
    "Mdds.SSMap.C15_find",
    "Mdds.SSMap.C15_find_entry",
    "Mdds.SSMap.C15_find_absent",
    "Mdds.SSMap.C15_unsorted_fails"
   ],
   "note": "For sorted tables (the documented precondition; C15_unsorted_fails shows that it is needed)."
  },
  {
   "property": "C16",
   "status": "proved",
   "theorems": [
    "Mdds.SSMap.C16_linear",
    "Mdds.SSMap.C16_hash",
    "Mdds.SSMap.C16_sound",
    "Mdds.SSMap.C16_round_trip"
   ],
   "note": ""
  },
  {
   "property": "C17",
   "status": "partial",
   "theorems": [
    "Mdds.Trie.C17_insert",
    "Mdds.Trie.C17_history_partial",
    "Mdds.Trie.C17_history_insert_clear",
    "Mdds.Trie.C17_size",
    "Mdds.Trie.C17_isEmpty",
    "Mdds.Trie.C17_clear",
    "Mdds.Trie.C17_eq",
    "Mdds.Trie.C17_find_present",
    "Mdds.Trie.C17_find_exact",
    "Mdds.Trie.C17_find_partial",
    "Mdds.Trie.C17_find_fails"
   ],
   "note": "Everything holds except lookup of some keys that are not stored: find() returns the entry of a shorter key (C17_find_fails: {a, abd}, find(abx) gives a). C17_find_exact describes find() for every key that is not stored; C17_find_partial is the property for all other keys."
  },
  {
   "property": "C18",
   "status": "partial",
   "theorems": [
    "Mdds.Trie.C18_erase_present",
    "Mdds.Trie.C18_erase_exact",
    "Mdds.Trie.C18_erase_partial",
    "Mdds.Trie.C18_erase_fails",
    "Mdds.Trie.C18_no_dead_branch"
   ],
   "note": "erase() of a stored key is right and leaves no dead branch. erase() of some keys that are not stored removes a shorter key (C18_erase_fails); C18_erase_exact says exactly which."
  },
  {
   "property": "C19",
   "status": "partial",
   "theorems": [
    "Mdds.Trie.C19_prefix_search",
    "Mdds.Trie.C19_iterate_nonempty_keys",
    "Mdds.Trie.C19_iterate_partial",
    "Mdds.Trie.C19_iterate_fails",
    "Mdds.Trie.C19_prefix_search_empty_fails",
    "Mdds.Trie.C19_find_continues"
   ],
   "note": "prefix_search is right for every non-empty map; on an empty map with an empty prefix its begin() is undefined. begin()..end() skips the empty key (C19_iterate_fails)."
  },
  {
   "property": "C20",
   "status": "partial",
   "theorems": [
    "Mdds.Trie.C20_dec_partial",
    "Mdds.Trie.C20_dec_inc_prefix_free",
    "Mdds.Trie.C20_dec_end_partial",
    "Mdds.Trie.C20_dec_fails",
    "Mdds.Trie.C20_dec_ub_fails",
    "Mdds.Trie.C20_dec_end_fails",
    "Mdds.Trie.C20_iterator_eq"
   ],
   "note": "Right from every position whose key is not a prefix of another stored key, and in two further cases; the code is wrong or undefined from other positions."
  },
  {
   "property": "C21",
   "status": "partial",
   "theorems": [
    "Mdds.Packed.C21_pack_or_throw",
    "Mdds.Packed.C21_limit_message_fails",
    "Mdds.Packed.C21_cells",
    "Mdds.Packed.C21_find",
    "Mdds.Packed.C21_size",
    "Mdds.Packed.C21_node_walk",
    "Mdds.Packed.C21_prefix_search",
    "Mdds.Packed.C21_iterate_nonempty_keys",
    "Mdds.Packed.C21_same_order",
    "Mdds.Packed.C21_iterate_partial",
    "Mdds.Packed.C21_find_continues",
    "Mdds.Packed.C21_dec_follows",
    "Mdds.Packed.C21_dec_end_partial",
    "Mdds.Packed.C21_entries_partial",
    "Mdds.Packed.C21_entries_find_partial",
    "Mdds.Packed.C21_iterate_fails",
    "Mdds.Packed.C21_truncation_fails",
    "Mdds.Packed.C21_entries_zero_fails",
    "Mdds.Packed.C21_find_eq"
   ],
   "note": "Lookups, prefix searches, size, node walk and iteration of a packed trie agree with the trie it was made from, provided the buffer length fits into the cell type. Partial: begin() skips the empty key (C21_iterate_fails), a longer buffer is silently truncated (C21_truncation_fails), the entries constructor treats key unit 0 as 'no range yet' (C21_entries_zero_fails). Holds for copies of packed maps as well."
  },
  {
   "property": "C22",
   "status": "partial",
   "theorems": [
    "Mdds.Packed.C22_roundtrip",
    "Mdds.Packed.C22_kind_mismatch",
    "Mdds.Packed.C22_size_mismatch",
    "Mdds.Packed.C22_cell_mismatch",
    "Mdds.Packed.C22_rejected_load_fails",
    "Mdds.Packed.numSer_lawful",
    "Mdds.Packed.seqSer_lawful",
    "Mdds.Packed.strSer_lawful"
   ],
   "note": "Round trip proved for every lawful serializer and every storable state (library serializers shown lawful); mismatches rejected. A rejected load may already have replaced the values (witness). Streams that end early: C63."
  },
  {
   "property": "C23",
   "status": "proved",
   "theorems": [
    "Mdds.Mtv.C23_set"
   ],
   "note": "SoA layout; every reachable state, hinted and plain overloads."
  },
  {
   "property": "C24",
   "status": "proved",
   "theorems": [
    "Mdds.Mtv.C24_set_range"
   ],
   "note": "SoA layout; every reachable state, hinted and plain overloads."
  },
  {
   "property": "C25",
   "status": "proved",
   "theorems": [
    "Mdds.Mtv.C25_insert",
    "Mdds.Mtv.C25_insert_empty"
   ],
   "note": "SoA layout."
  },
  {
   "property": "C26",
   "status": "proved",
   "theorems": [
    "Mdds.Mtv.C26_set_empty"
   ],
   "note": "SoA layout."
  },
  {
   "property": "C27",
   "status": "proved",
   "theorems": [
    "Mdds.Mtv.C27_erase"
   ],
   "note": "SoA layout."
  },
  {
   "property": "C28",
   "status": "partial",
   "theorems": [
    "Mdds.Mtv.C28_push_back",
    "Mdds.Mtv.C28_push_back_empty",
    "Mdds.Mtv.C28_clear",
    "Mdds.Mtv.C28_resize_partial",
    "Mdds.Mtv.C28_resize_fails",
    "Mdds.Mtv.C28_construct",
    "Mdds.Mtv.C28_history"
   ],
   "note": "resize that cuts a run of a managed type in two is excluded: there the code passes a logical position as block offset (undefined behaviour, witness C28_resize_fails). Everything else is unconditional."
  },
  {
   "property": "C29",
   "status": "proved",
   "theorems": [
    "Mdds.Mtv.C29_size",
    "Mdds.Mtv.C29_get",
    "Mdds.Mtv.C29_get_out",
    "Mdds.Mtv.C29_position",
    "Mdds.Mtv.C29_move",
    "Mdds.Mtv.C29_get_at"
   ],
   "note": "SoA layout; get with a type other than the cell's is undefined in the code and outside the claim."
  },
  {
   "property": "C30",
   "status": "partial",
   "theorems": [
    "Mdds.Mtv.C30_tiled",
    "Mdds.Mtv.C30_canonical_partial",
    "Mdds.Mtv.C30_canonical_fails",
    "Mdds.Mtv.C30_tiled_pair",
    "Mdds.Mtv.C30_canonical_pair_partial"
   ],
   "note": "Contiguity, sizes and no neighbouring empty blocks for every history, also over two containers with transfer and swap; no neighbours of one type for histories without one kind of range set, for which it is false in the code (witness)."
  },
  {
   "property": "C31",
   "status": "partial",
   "theorems": [
    "Mdds.Mtv.C31_equal_sound",
    "Mdds.Mtv.C31_equal_partial",
    "Mdds.Mtv.C31_equal_fails"
   ],
   "note": "Equal containers show the same sequence always; the converse for the histories of C30_canonical_partial, false otherwise (witness)."
  },
  {
   "property": "C32",
   "status": "proved",
   "theorems": [
    "Mdds.Mtv.C32_hint",
    "Mdds.Mtv.C32_hint_position",
    "Mdds.Mtv.C32_hint_transfer",
    "Mdds.Mtv.C32_hint_empty_fails"
   ],
   "note": "Non-empty states, any hint value; on an empty container a hinted call is undefined (witness, outside the property's quantifier)."
  },
  {
   "property": "C33",
   "status": "proved",
   "theorems": [
    "Mdds.Mtv.C33_transfer",
    "Mdds.Mtv.C33_self",
    "Mdds.Mtv.C33_objects",
    "Mdds.Mtv.C33_history"
   ],
   "note": "Every reachable pair of containers that own their blocks; exact effect on both, which objects are destroyed, and no change on a throw. The hinted overload needs a non-empty source (M5)."
  },
  {
   "property": "C34",
   "status": "proved",
   "theorems": [
    "Mdds.Mtv.C34_swap",
    "Mdds.Mtv.C34_twice",
    "Mdds.Mtv.C34_whole",
    "Mdds.Mtv.C34_objects_partial",
    "Mdds.Mtv.C33_history"
   ],
   "note": "Every reachable pair of containers that own their blocks: both contents exactly exchanged, everything else kept, no change on a throw; swapping twice restores; whole swap. The extra statement on owned objects excludes one shape (M3, see C36)."
  },
  {
   "property": "C35",
   "status": "proved",
   "theorems": [
    "Mdds.Mtv.C35_release",
    "Mdds.Mtv.C35_release_range",
    "Mdds.Mtv.C35_release_all"
   ],
   "note": "SoA layout."
  },
  {
   "property": "C36",
   "status": "partial",
   "theorems": [
    "Mdds.Mtv.C36_ledger_partial",
    "Mdds.Mtv.C36_lifetime_partial",
    "Mdds.Mtv.C36_once_partial",
    "Mdds.Mtv.C36_leak_fails",
    "Mdds.Mtv.C36_swap_fails",
    "Mdds.Mtv.C28_resize_fails",
    "Mdds.Mtv.C36_ledger_pair_partial",
    "Mdds.Mtv.C36_once_pair_partial",
    "Mdds.Aos.C36_aos_ledger_partial",
    "Mdds.Aos.C36_aos_lifetime_partial",
    "Mdds.Aos.C36_aos_ledger_pair_partial",
    "Mdds.Aos.C36_aos_leak_fails",
    "Mdds.Aos.C36_aos_copy_lost",
    "Mdds.Aos.C36_aos_copy_leak_fails"
   ],
   "note": "Histories over one container, and over two with transfer and swap, on both implementations; excludes one kind of range set that leaks and one shape of range swap that destroys stored objects (witnesses), and resize inside a managed run. A throwing copy constructor of the array-of-structures implementation loses blocks (witness, and exactly which values)."
  },
  {
   "property": "C37",
   "status": "partial",
   "theorems": [
    "Mdds.Mtv.C37_count",
    "Mdds.Mtv.C37_events_partial",
    "Mdds.Mtv.C37_insert_fails",
    "Mdds.Mtv.C37_set_fails",
    "Mdds.Mtv.C37_count_pair",
    "Mdds.Mtv.C37_events_pair_partial",
    "Mdds.Aos.C37_aos_events_partial",
    "Mdds.Aos.C37_aos_events_pair_partial",
    "Mdds.Aos.C37_aos_set_fails"
   ],
   "note": "Number of notifications balances for every history, also over two containers with transfer and swap; per-block balance except for two kinds of call that report the wrong block or none (witnesses). The array-of-structures implementation has only the second of the two exceptions."
  },
  {
   "property": "C38",
   "status": "proved",
   "theorems": [
    "Mdds.Mtv.Cow.C38_history",
    "Mdds.Mtv.Cow.C38_exceptions",
    "Mdds.Mtv.Cow.C38_isolated",
    "Mdds.Mtv.Cow.C38_copy",
    "Mdds.Mtv.Cow.C38_size",
    "Mdds.Mtv.Cow.C38_blocks",
    "Mdds.Mtv.Cow.C38_no_leak",
    "Mdds.Mtv.Cow.C38_shared",
    "Mdds.Mtv.Cow.C38_events",
    "Mdds.Mtv.Cow.C38_detach",
    "Mdds.Mtv.Cow.C38_clone_fails",
    "Mdds.Mtv.Cow.C38_moved_size_fails",
    "Mdds.Aos.C38_aos_history"
   ],
   "note": "Any number of containers over a heap of element blocks; histories of construction, copy, clone, move, assignment, swap, destruction, detach, every modifying call, transfer and range swap, with copy-on-write on or off. Reading or deleting a block that does not exist is undefined behaviour in the model; no history of defined steps reaches it, and every container shows what it would show if nothing were shared. Excluded: cloning, with copy-on-write, a container whose blocks cannot be cloned (finding M8, C38_clone_fails). Blocks that a call on an owner leaves alone get new addresses in the model; event handlers are compared by number of events. Arguments that refer to an element of the container itself are outside the model."
  },
  {
   "property": "C39",
   "status": "proved",
   "theorems": [
    "Mdds.Mtv.Kernels.adjust_spec",
    "Mdds.Mtv.Kernels.adjust_agree"
   ],
   "note": "All 12 kernels (plain, unrolled 4/8/16/32, SSE2 and AVX2 variants), with their literal offsets, masks and remainder loops, on 64-bit words."
  },
  {
   "property": "C40",
   "status": "partial",
   "theorems": [
    "Mdds.Ddv.history_refines",
    "Mdds.Ddv.reads_agree",
    "Mdds.Ddv.erase_iterators",
    "Mdds.Ddv.eq_iff",
    "Mdds.Ddv.swap_partial",
    "Mdds.Ddv.swap_fails",
    "Mdds.Ddv.moved_from_size_fails"
   ],
   "note": "Proved for every history of push_back, insert, erase, resize, reserve, shrink_to_fit, assign and writes. swap() and moved-from objects violate the property in the code (witnesses swap_fails, moved_from_size_fails)."
  },
  {
   "property": "C41",
   "status": "proved",
   "theorems": [
    "Mdds.Mtm.C41_table",
    "Mdds.Mtm.C41_construct",
    "Mdds.Mtm.C41_get",
    "Mdds.Mtm.C41_get_numeric",
    "Mdds.Mtm.C41_get_string",
    "Mdds.Mtm.C41_position",
    "Mdds.Mtm.C41_set",
    "Mdds.Mtm.C41_set_get",
    "Mdds.Mtm.C41_set_run",
    "Mdds.Mtm.C41_set_empty",
    "Mdds.Mtm.C41_set_at",
    "Mdds.Mtm.C41_lines",
    "Mdds.Mtm.C41_out_of_range",
    "Mdds.Mtm.C41_row_bound_fails",
    "Mdds.Mtm.C41_numeric",
    "Mdds.Mtm.C41_empty"
   ],
   "note": "All reached matrices, all sizes and in-range rows and columns. Rows behind the last one are not refused by the code (C41_row_bound_fails)."
  },
  {
   "property": "C42",
   "status": "proved",
   "theorems": [
    "Mdds.Mtm.C42_transpose",
    "Mdds.Mtm.C42_twice",
    "Mdds.Mtm.C42_integer_throws"
   ],
   "note": "For matrices without integers, as stated; with an integer element transpose throws and changes nothing."
  },
  {
   "property": "C43",
   "status": "partial",
   "theorems": [
    "Mdds.Mtm.C43_copy_partial",
    "Mdds.Mtm.C43_copy_throws",
    "Mdds.Mtm.C43_copy_fails",
    "Mdds.Mtm.C43_copy_array",
    "Mdds.Mtm.C43_resize_partial",
    "Mdds.Mtm.C43_resize_fill_partial",
    "Mdds.Mtm.C43_resize_zero",
    "Mdds.Mtm.C43_resize_throws",
    "Mdds.Mtm.C43_resize_fails"
   ],
   "note": "The full statement is false: copy and resize throw when an integer element is in the common part (C43_copy_fails, C43_resize_fails). Proved for all other tables, together with what happens on the throw."
  },
  {
   "property": "C44",
   "status": "partial",
   "theorems": [
    "Mdds.Mtm.C44_walk",
    "Mdds.Mtm.C44_walk_range_partial",
    "Mdds.Mtm.C44_range_refused",
    "Mdds.Mtm.C44_bound_fails",
    "Mdds.Mtm.C44_walk_with",
    "Mdds.Mtm.C44_walk_range_with_partial"
   ],
   "note": "Proved for every region inside the matrix. The bounds check lets a region through that ends one behind the matrix (C44_bound_fails)."
  },
  {
   "property": "C45",
   "status": "partial",
   "theorems": [
    "Mdds.Coll.C45_construct",
    "Mdds.Coll.C45_traverse",
    "Mdds.Coll.C45_once",
    "Mdds.Coll.C45_ranges_partial",
    "Mdds.Coll.C45_refused",
    "Mdds.Coll.C45_empty_fails",
    "Mdds.Coll.C45_overflow_fails"
   ],
   "note": "Traversal is proved for every collection after any history of calls on two collections. Partial: range arguments whose sum does not fit size_t are wrongly accepted (C45_overflow_fails), and an empty range of containers is undefined (C45_empty_fails)."
  },
  {
   "property": "C46",
   "status": "proved",
   "theorems": [
    "Mdds.Quad.C46_search"
   ],
   "note": "For every reachable tree (any calls, including remove) and rectangle."
  },
  {
   "property": "C47",
   "status": "proved",
   "theorems": [
    "Mdds.Quad.C47_insert",
    "Mdds.Quad.C47_find",
    "Mdds.Quad.C47_size",
    "Mdds.Quad.C47_empty",
    "Mdds.Quad.C47_history"
   ],
   "note": "Insert/find/size/empty against a finite map; whole histories of insert and clear."
  },
  {
   "property": "C48",
   "status": "partial",
   "theorems": [
    "Mdds.Quad.C48_remove_sound",
    "Mdds.Quad.C48_remove_exact_iff",
    "Mdds.Quad.C48_remove_partial",
    "Mdds.Quad.C48_returns_partial",
    "Mdds.Quad.C48_absent",
    "Mdds.Quad.C48_history_partial",
    "Mdds.Quad.C48_remove_fails",
    "Mdds.Quad.C48_throw_fails"
   ],
   "note": "remove is exact if and only if the replacement node is a child of the removed one; otherwise points are lost (C48_remove_fails), and stale parent pointers make a later remove throw (C48_throw_fails)."
  },
  {
   "property": "C49",
   "status": "partial",
   "theorems": [
    "Mdds.Quad.C49_copy",
    "Mdds.Quad.C49_assign_partial",
    "Mdds.Quad.C49_assign_fails",
    "Mdds.Quad.C49_equal"
   ],
   "note": "Copy, equality and assignment between different trees; self-assignment loses everything (C49_assign_fails)."
  },
  {
   "property": "C50",
   "status": "partial",
   "theorems": [
    "Mdds.RTree.C50_search_point_overlap_partial",
    "Mdds.RTree.C50_search_point_match_partial",
    "Mdds.RTree.C50_search_extent_overlap_partial",
    "Mdds.RTree.C50_search_extent_match_partial",
    "Mdds.RTree.C50_every_entry_has_a_position_partial",
    "Mdds.RTree.C50_search_fails"
   ],
   "note": "All four searches are exact (contents with multiplicity, each position once, every position leads to the reported value) for every history of construction, bulk loading, insertion, erasure, copying, moving whose insertions and erasures are covered (roomy/mild). Missing: histories outside that set; C50_search_fails shows the code loses an entry there (bulk load, then growth until the root splits)."
  },
  {
   "property": "C51",
   "status": "partial",
   "theorems": [
    "Mdds.RTree.C51_insert_partial",
    "Mdds.RTree.C51_insertion_histories",
    "Mdds.RTree.C51_insert_returns_partial"
   ],
   "note": "C51_insertion_histories is the full statement for every insertion-only history, up to the size the depth limit makes possible. C51_insert_partial covers a single insertion in every covered history. C51_insert_returns_partial covers every tree at all, for insertions that return; missing: that an insertion returns when the tree is outside the covered histories (root's pointers marked valid and no room, where the code mis-sets parent pointers, see C50_search_fails)."
  },
  {
   "property": "C52",
   "status": "partial",
   "theorems": [
    "Mdds.RTree.C52_erase_partial",
    "Mdds.RTree.C52_erase_fails",
    "Mdds.RTree.C52_erase_dangling_fails",
    "Mdds.RTree.C52_erase_returns_partial",
    "Mdds.RTree.C52_erase_returns_or_keeps_partial"
   ],
   "note": "Exactly one entry is removed for every covered erasure (leaf keeps its minimum, or it is dissolved under the root or under a directory that keeps its minimum). C52_erase_returns_partial and C52_erase_returns_or_keeps_partial cover every tree and cascading dissolution, for erasures that return: exactly the entry is removed if the value's parent pointer is right, none otherwise. Missing: that a cascading erasure returns; the _fails theorems show the code erases nothing, or follows a dangling pointer."
  },
  {
   "property": "C53",
   "status": "partial",
   "theorems": [
    "Mdds.RTree.C53_boxes_exact_insertions",
    "Mdds.RTree.C53_boxes_exact_bulk",
    "Mdds.RTree.C53_boxes_exact_partial",
    "Mdds.RTree.C53_boxes_cover_partial",
    "Mdds.RTree.C53_boxes_fails",
    "Mdds.RTree.C53_extent_after_erase_fails"
   ],
   "note": "Full for every insertion history and for every bulk-loaded tree; for mixed histories under the coverage conditions. C53_boxes_fails refutes the unrestricted combination of bulk loading and insertion."
  },
  {
   "property": "C54",
   "status": "proved",
   "theorems": [
    "Mdds.RTree.C54_occupancy_and_depth",
    "Mdds.RTree.C54_shape_partial",
    "Mdds.RTree.C54_check_integrity_partial",
    "Mdds.RTree.C54_check_integrity_fails",
    "Mdds.RTree.C54_capacity_after_erase_fails",
    "Mdds.RTree.C54_depth_after_erase_fails"
   ],
   "note": "C54_occupancy_and_depth is the stated property for every insertion history. The others extend it to mixed histories and record where erasure breaks it and where check_integrity rejects a correct tree."
  },
  {
   "property": "C55",
   "status": "partial",
   "theorems": [
    "Mdds.RTree.C55_bulk_contents_partial",
    "Mdds.RTree.C55_bulk_searches_partial",
    "Mdds.RTree.C55_bulk_terminates_partial",
    "Mdds.RTree.C55_bulk_terminates_fails"
   ],
   "note": "Contents, capacity, depth and searches whenever pack() returns, for every configuration; termination for up to max^(D+1) entries in any dimension and for any number of entries in one or two dimensions with max >= 3. Missing: termination for the remaining configurations, which is false (C55_bulk_terminates_fails)."
  },
  {
   "property": "C56",
   "status": "proved",
   "theorems": [
    "Mdds.Mtv.C56_failed_call",
    "Mdds.Mtv.C56_failed_call_pair",
    "Mdds.Mtv.C33_self"
   ],
   "note": "All calls of one container, transfer and range swap."
  },
  {
   "property": "C57",
   "status": "partial",
   "theorems": [
    "Mdds.Aos.C57_history_partial",
    "Mdds.Aos.C57_history_pair_partial",
    "Mdds.Aos.C57_events_partial",
    "Mdds.Aos.C57_events_pair_partial",
    "Mdds.Aos.C57_events_fails",
    "Mdds.Aos.C57_self_transfer_fails",
    "Mdds.Aos.C57_destroy",
    "Mdds.Aos.C57_equal",
    "Mdds.Aos.C57_aos_contents",
    "Mdds.Aos.C57_aos_contents_pair",
    "Mdds.Aos.C57_many_partial"
   ],
   "note": "Same answers, exceptions, contents, destroyed values and undefined behaviour for every constructor and every history of calls and reads over one or two containers, and over any number of containers with copying, cloning, moving, assignment, exchange and destruction. Partial: one kind of insert reports different blocks (witness); a hinted transfer of a container to itself is refused by one implementation only (witness)."
  },
  {
   "property": "C58",
   "status": "partial",
   "theorems": [
    "Mdds.Packed.C58_eq_partial",
    "Mdds.Packed.C58_eq_fails",
    "Mdds.Packed.C58_eq_ub_fails"
   ],
   "note": "Proved when neither side holds the empty key; with it equality ignores its value or reads out of range (witnesses)."
  },
  {
   "property": "C59",
   "status": "partial",
   "theorems": [
    "Mdds.Mtm.C59_equal_sound",
    "Mdds.Mtm.C59_equal_partial",
    "Mdds.Mtm.C59_equal_fails"
   ],
   "note": "Equal matrices show the same table, always. The converse is proved for matrices built element by element and is false after a range set (C59_equal_fails)."
  },
  {
   "property": "C60",
   "status": "partial",
   "theorems": [
    "Mdds.Packed.C60_copy",
    "Mdds.Packed.C60_assign",
    "Mdds.Packed.C60_move",
    "Mdds.Packed.C60_equal_partial",
    "Mdds.Packed.C60_copy_default_fails",
    "Mdds.Packed.C60_copy_moved_fails"
   ],
   "note": "Every copy, copy of a copy, assignment and move target shows the same lookups, prefix searches and iteration. Partial: equality with the source only without the empty key (operator== ignores it, see C58); copying a default-constructed or moved-from map is undefined (witnesses)."
  },
  {
   "property": "C61",
   "status": "partial",
   "theorems": [
    "Mdds.Packed.C61_results",
    "Mdds.Packed.C61_values_partial",
    "Mdds.Packed.C61_copy_fails",
    "Mdds.Packed.C61_assign_fails"
   ],
   "note": "The code violates this: a copied or moved non-empty result cannot be iterated (proved for every map and prefix), an assigned one shows values of the map the target came from. The partial theorem covers empty results and assignment between results of one map."
  },
  {
   "property": "C62",
   "status": "partial",
   "theorems": [
    "Mdds.FST.Mem.C62_memory_refines",
    "Mdds.FST.Mem.C62_no_fault",
    "Mdds.FST.Mem.C62_no_leak",
    "Mdds.FST.Mem.leaves_two",
    "Mdds.FST.Mem.C62_no_fault_fails"
   ],
   "note": "For every history of legal calls the heap model never faults, tells the caller the same as the list model, shows its leaves in both directions, shares no nodes, counts references exactly and leaks nothing. Legal excludes using a moved-from container and inserting a range that lies below the minimum and ends exactly at it; the latter does follow a null pointer (C62_no_fault_fails). Nodes of the search tree and iterators held across changes: C71."
  },
  {
   "property": "C63",
   "status": "partial",
   "theorems": [
    "Mdds.Packed.C63_cut_early",
    "Mdds.Packed.C63_cut_in_cells_partial",
    "Mdds.Packed.C63_cut_partial",
    "Mdds.Packed.C63_cut_unnoticed_fails",
    "Mdds.Packed.C63_rejected_fails",
    "Mdds.Packed.C63_accepted_fails",
    "Mdds.Packed.loadT_eq"
   ],
   "note": "load_state never looks at the state of the stream. Proved: a prefix that ends before the first cell is never accepted; one that ends within or behind the cells is rejected exactly if the low byte of the last number read is not 255. The property as stated fails: a cut within the values loops for ever, a short one uses unwritten bytes, a cut after a cell with low byte 255 is either undefined or accepted (witnesses). loadT_eq: the stream-state model agrees with the model of C22 whenever that is defined."
  },
  {
   "property": "C64",
   "status": "proved",
   "theorems": [
    "Mdds.RTree.C64_check_iff",
    "Mdds.RTree.C64_passed_searches",
    "Mdds.RTree.C64_wrong_search_caught",
    "Mdds.RTree.C64_fit_for_insertion_fails"
   ],
   "note": "For all trees with proper extents. Beyond the property: passing does not make a tree fit for further insertions (C64_fit_for_insertion_fails: the flag that parent pointers are current is not looked at)."
  },
  {
   "property": "C65",
   "status": "partial",
   "theorems": [
    "Mdds.Quad.C65_refines_partial",
    "Mdds.Quad.C65_owned_partial",
    "Mdds.Quad.C65_no_leak_partial",
    "Mdds.Quad.C65_find_partial",
    "Mdds.Quad.C65_leak_fails",
    "Mdds.Quad.C65_leak_subtree_fails",
    "Mdds.Quad.C65_no_leak_fails",
    "Mdds.Quad.C65_safe",
    "Mdds.Quad.C65_refines",
    "Mdds.Quad.C65_separate",
    "Mdds.Quad.C65_counts",
    "Mdds.Quad.C65_find"
   ],
   "note": "Heap model with reference counts, programs over any number of containers. Proved for every program up to its first exception: no deleted or null pointer is followed, contents, exceptions and parent pointers as in the tree model, no sharing, counts exact (C65_safe, C65_refines, C65_separate, C65_counts, C65_find). No leak: proved for programs whose removals meet an absent point or a node without children (C65_owned_partial, C65_no_leak_partial), false otherwise: two points inserted and removed leave a node that owns itself (C65_leak_fails, C65_no_leak_fails), and the subtree lost by a removal with a deeper replacement is never freed (C65_leak_subtree_fails). Missing: the heap after an exception."
  },
  {
   "property": "C66",
   "status": "partial",
   "theorems": [
    "Mdds.FST.C66_shiftLeft_partial",
    "Mdds.FST.C66_shiftRight_partial",
    "Mdds.FST.C66_history_partial",
    "Mdds.FST.C66_unsigned_fails",
    "Mdds.FST.C66_order_fails",
    "Mdds.FST.C66_signed_fails",
    "Mdds.FST.C66_length_fails"
   ],
   "note": "The full property is false of the code: large shifts near the end of the key range overflow (witnesses). Proved: the exact condition for each shift, and equality with the unbounded model for every history with bounded right shifts. Floating point keys are not modelled."
  },
  {
   "property": "C67",
   "status": "partial",
   "theorems": [
    "Mdds.Quad.C67_loop_partial",
    "Mdds.Quad.C67_kept_partial",
    "Mdds.Quad.C67_end_exact",
    "Mdds.Quad.C67_end_fails",
    "Mdds.Quad.C67_removed_fails",
    "Mdds.Quad.C67_moved_fails"
   ],
   "note": "Walk from begin() to end() and back from there, at once or after the program went on without removing from the container: exact for every program and region. Stepping back from end() itself shows a default value instead of the last point, for every non-empty result (C67_end_exact, C67_end_fails). After a removal the result may dangle, also at points that were not removed (witnesses)."
  },
  {
   "property": "C68",
   "status": "proved",
   "theorems": [
    "Mdds.Quad.C68_access"
   ],
   "note": "For every program, up to its first exception."
  },
  {
   "property": "C69",
   "status": "partial",
   "theorems": [
    "Mdds.SegTree.Mem.C69_memory_refines",
    "Mdds.SegTree.Mem.C69_no_leak",
    "Mdds.SegTree.Mem.C69_check_fails",
    "Mdds.SegTree.Mem.C69_moved_from_fails"
   ],
   "note": "All programs over any number of containers and results. Missing from the unrestricted statement, and false (witnesses): check_integrity after building an emptied tree follows stale tags; searching a tree that was moved from follows its old root pointer. check_integrity is modelled only as far as it follows m_tagged_nodes_map; export and graph functions are not part of this model."
  },
  {
   "property": "C70",
   "status": "partial",
   "theorems": [
    "Mdds.SegTree.Mem.C70_results_last_partial",
    "Mdds.SegTree.Mem.C70_erase_fails",
    "Mdds.SegTree.Mem.C70_swap_fails"
   ],
   "note": "Holds for every continuation made of calls that do not change the searched container except insert. It is false for the others (witnesses): after erasing, reading the result is undefined; after swap it shows segments of the other container."
  },
  {
   "property": "C71",
   "status": "partial",
   "theorems": [
    "Mdds.FST.Pool.C71_searches_refine",
    "Mdds.FST.Pool.C71_no_leak",
    "Mdds.FST.Pool.segmentAt_spec",
    "Mdds.FST.Pool.C71_stale_position_fails",
    "Mdds.FST.Pool.C71_advance_after_swap_fails",
    "Mdds.FST.Pool.C71_removed_leaf_fails"
   ],
   "note": "For every legal program, memory and lists agree on everything the program is told, leaves and pools of tree nodes are exactly those of the containers, and nothing is left at the end. Iterators stay usable when their container is moved or swapped (they then stand in the other container) and while nothing changes it. Giving a position to a container whose leaves were swapped away reports a segment of the other container (C71_stale_position_fails), advancing such an iterator reaches a null pointer (C71_advance_after_swap_fails), reading one at a removed leaf uses freed memory (C71_removed_leaf_fails)."
  },
  {
   "property": "C72",
   "status": "partial",
   "theorems": [
    "Mdds.Trie.Kept.C72_kept_iterators_partial",
    "Mdds.Trie.Kept.C72_insert_keeps_fresh",
    "Mdds.Trie.Kept.C72_erase_keeps_fresh",
    "Mdds.Trie.Kept.C72_skip_fails",
    "Mdds.Trie.Kept.C72_past_end_fails",
    "Mdds.Trie.Kept.C72_erased_child_fails",
    "Mdds.Trie.Kept.C72_compare_fails",
    "Mdds.Trie.Kept.C72_erased_key_fails",
    "Mdds.Trie.Kept.sWrite_lookup"
   ],
   "note": "The full property is false of the code: an iterator at a key stores the position of the first unit below it, and a change of that unit makes a later ++ skip keys or move a dead position (witnesses), or makes two iterators at one key unequal. Proved for every program that moves and compares only iterators whose first unit below is unchanged (calls on keys that do not continue the iterator's key never change it); reading needs only that the key was not erased. The empty key is not stored, erase/find calls are safe in the sense of C18, and -- is used where C20 holds. Move construction and swap of the map are not part of this model."
  },
  {
   "property": "C73",
   "status": "partial",
   "theorems": [
    "Mdds.Elem.C73_blocks_partial",
    "Mdds.Elem.C73_throw_keeps",
    "Mdds.Elem.C73_copy_throws",
    "Mdds.Elem.C73_copy_delete",
    "Mdds.Elem.C73_copy_equal",
    "Mdds.Elem.C73_clone_equal",
    "Mdds.Elem.C73_copy_leak_fails",
    "Mdds.Elem.C73_copy_equal_fails",
    "Mdds.Elem.C73_copy_hidden_fails",
    "Mdds.Elem.C73_copy_null_fails",
    "Mdds.Elem.C73_append_self_fails",
    "Mdds.Elem.C73_at64_partial",
    "Mdds.Elem.C73_at_wrap_fails"
   ],
   "note": "Proved for all legal programs: answers, contents and objects are those of a specification with lists; calls that throw change nothing; copies own new objects and deleting a copy restores the state. False parts, with witnesses: when the copy constructor of an element of a managed block throws, the copies made before are lost (C73_copy_throws says exactly which); a copy of a nonempty managed block never equals its source because pointers are compared; a copy of a delayed_delete_vector block also copies erased elements; at() of that vector wraps in 64 bits. Legal excludes: positions outside a block, blocks of another class than the function called, a block as its own source, copying null pointers, deleting an object twice."
  },
  {
   "property": "C74",
   "status": "partial",
   "theorems": [
    "Mdds.Mtv.Iter.C74_programs_partial",
    "Mdds.Mtv.Iter.C74_walk",
    "Mdds.Mtv.Iter.C74_hint",
    "Mdds.Mtv.Iter.C74_hint_position",
    "Mdds.Mtv.Iter.C74_returned",
    "Mdds.Mtv.Iter.C74_next",
    "Mdds.Mtv.Iter.C74_shows_partial",
    "Mdds.Mtv.Iter.C74_equal_partial",
    "Mdds.Mtv.Iter.C74_set_keeps",
    "Mdds.Mtv.Iter.C74_push_back_keeps",
    "Mdds.Mtv.Iter.C74_swap_fails",
    "Mdds.Mtv.Iter.C74_push_back_fails",
    "Mdds.Aos.Iter.C74_layouts",
    "Mdds.Aos.Iter.C74_aos_programs_partial",
    "Mdds.Mtv.Iter.C74_transfer",
    "Mdds.Mtv.Iter.C74_hint_transfer"
   ],
   "note": "Both layouts (array of structures: C74_layouts, the same answers in every program, and C74_aos_programs_partial). The walk, hints, returned iterators and position stepping are proved for every world legal programs reach. Two parts of the English claim fail in the code and are refuted by witnesses: after a container swap a kept iterator is unequal to a new one at the same block (it remembers its old container), and after a push_back into the last block a kept iterator there shows the old size; without those steps both are proved (C74_shows_partial, C74_equal_partial). Missing: hints on an empty container (finding of C23-C29), calls on moved-from containers, the copy-on-write layout. transfer and range swap between two containers are steps of the programs (C74_transfer, C74_hint_transfer)."
  },
  {
   "property": "C75",
   "status": "partial",
   "theorems": [
    "Mdds.Coll.C75_traverse",
    "Mdds.Coll.C75_unchanged",
    "Mdds.Coll.C75_short",
    "Mdds.Coll.C75_late_read_fails"
   ],
   "note": "Traversal order, termination and the values shown are proved for every history and every change that keeps the containers long enough. Advancing to a position behind the end of a shortened container throws; advancing to exactly its end is undefined (C75_short), so the last sentence of the property is only partly true. Reading an element after its container changed may use a block that no longer exists (C75_late_read_fails)."
  },
  {
   "property": "C76",
   "status": "partial",
   "theorems": [
    "Mdds.Trie.Obj.C76_objects_partial",
    "Mdds.Trie.Obj.C76_objects_separate",
    "Mdds.Trie.Obj.C76_new_search",
    "Mdds.Trie.Obj.C76_kept_is_new",
    "Mdds.Trie.Obj.C76_dangling_fails",
    "Mdds.Trie.Obj.C76_empty_result_fails",
    "Mdds.Trie.Obj.C76_moved_from_fails",
    "Mdds.Trie.Obj.C76_swap_follows",
    "Mdds.Trie.Obj.C76_assigned_fails"
   ],
   "note": "Proved for all programs in which a kept result or handle is used only while entries with its prefix have existed without interruption (empty prefix: while the object exists). Partial because the code violates the rest: a map with the empty key is not empty after a move, a result dangles once its last entry was erased, an empty result stays empty. Calls excluded by C18 and C19 are excluded here as well."
  },
  {
   "property": "C77",
   "status": "partial",
   "theorems": [
    "Mdds.Packed.Obj.C77_objects_partial",
    "Mdds.Packed.Obj.C77_move_fails",
    "Mdds.Packed.Obj.C77_swap_fails",
    "Mdds.Packed.Obj.C77_swap_copy_fails",
    "Mdds.Packed.Obj.C77_default_fails"
   ],
   "note": "For every program of the stated calls in which each call is allowed by the specification, the model answers as the specification says (keys of kept handles wherever the contents are, values while the contents are in the object the handle came from). Missing, because the code violates it: values read through a handle whose contents were moved (undefined, for every program: C77_move_fails) or swapped (values of the other map: C77_swap_fails, C77_swap_copy_fails); default-constructed and moved-from maps (C77_default_fails). Not modelled: copies of search results (C61), iterators kept across these calls."
  },
  {
   "property": "C78",
   "status": "proved",
   "theorems": [
    "Mdds.RTree.C78_write",
    "Mdds.RTree.C78_kept_results",
    "Mdds.RTree.C78_write_reach"
   ],
   "note": "For every tree whatsoever, reachable or not: a write through any search result replaces one value, and all searches before and after differ by that value alone; sequences of writes through kept results. A write is also a step of the histories of C50-C54."
  },
  {
   "property": "C79",
   "status": "partial",
   "theorems": [
    "Mdds.Mtm.C79_objects_partial",
    "Mdds.Mtm.C79_copy_equal",
    "Mdds.Mtm.C79_move_fails",
    "Mdds.Mtm.C79_moved_size_fails"
   ],
   "note": "Proved for all programs that give a moved-from matrix new contents before looking at it. Violated for moved-from matrices (`C79_move_fails`; `C79_moved_size_fails` for every matrix with elements): they report their old size while empty."
  }
 ]
}