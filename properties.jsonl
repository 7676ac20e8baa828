{"id": "C01", "title": "flat_segment_tree: insertion is pointwise update", "statement": "For a flat_segment_tree over [min,max) seen as a total function key -> value, insert_front(s,e,v) and insert_back(s,e,v) produce the function that is v on [s,e) clipped to [min,max) and unchanged elsewhere; they report 'not modified' exactly when the stored segments did not change; a range outside the domain or with s >= e is rejected with no change.", "quantifier": "every container state reachable by any history, every start/end key, every value", "why_tests_cant": "the insertion code has about a dozen positional cases (start/end on an existing node, merge left, merge right, erase in between); their combinations over arbitrary stored segment lists are unbounded", "anchors": ["include/mdds/flat_segment_tree_def.inl:insert_segment_impl", "include/mdds/flat_segment_tree_def.inl:insert_to_pos", "include/mdds/flat_segment_tree_def.inl:adjust_segment_range", "include/mdds/flat_segment_tree.hpp:insert_front", "include/mdds/flat_segment_tree.hpp:insert_back"]}
{"id": "C02", "title": "flat_segment_tree: segments stay sorted, in range and maximal", "statement": "After any history of insertions and shifts, the stored segment keys are strictly increasing, start at min_key, end at max_key, and no two adjacent segments have equal values.", "quantifier": "every history of operations from construction", "why_tests_cant": "it is an invariant over unbounded histories; a test can only sample histories", "anchors": ["include/mdds/flat_segment_tree_def.inl:insert_to_pos", "include/mdds/flat_segment_tree_def.inl:shift_left", "include/mdds/flat_segment_tree_def.inl:shift_right", "include/mdds/flat_segment_tree.hpp:shift_leaf_key_right"]}
{"id": "C03", "title": "flat_segment_tree: equality is equality of the represented function", "statement": "Two containers with the same bounds and default value compare equal iff every key has the same value in both.", "quantifier": "every pair of reachable containers", "why_tests_cant": "equality is implemented by comparing node lists; that this is the same as comparing functions depends on an invariant over all histories", "anchors": ["include/mdds/flat_segment_tree_def.inl:operator=="]}
{"id": "C04", "title": "flat_segment_tree: linear search", "statement": "search(key) succeeds exactly for min <= key < max and returns the value of the function at key together with the exact boundaries [start,end) of the maximal stored segment containing key.", "quantifier": "every reachable container and every key", "why_tests_cant": "quantifies over all keys and all states", "anchors": ["include/mdds/flat_segment_tree_def.inl:search", "include/mdds/flat_segment_tree_def.inl:search_by_key_impl", "include/mdds/flat_segment_tree.hpp:search"]}
{"id": "C05", "title": "flat_segment_tree: tree search agrees with linear search", "statement": "After build_tree(), search_tree(key) succeeds for exactly the same keys and returns the same value and segment boundaries as search(key); before build_tree() (or after any modification) it fails.", "quantifier": "every reachable container (any number of leaves), every key", "why_tests_cant": "the tree shape depends on the number of leaves; odd leaves at every level produce distinct shapes", "anchors": ["include/mdds/flat_segment_tree_def.inl:search_tree", "include/mdds/flat_segment_tree_def.inl:build_tree", "include/mdds/node.hpp:tree_builder", "include/mdds/node.hpp:count_needed_nonleaf_nodes"]}
{"id": "C06", "title": "flat_segment_tree: insertion with a position hint is transparent", "statement": "insert(pos,s,e,v) with any iterator pos into the container yields the same container and the same 'modified' flag as insert_front(s,e,v), and the returned iterator designates the segment that contains the start of the inserted range.", "quantifier": "every reachable container, every valid position, every range and value", "why_tests_cant": "the hint selects a different starting point of the scan, for every state/hint pair", "anchors": ["include/mdds/flat_segment_tree.hpp:insert", "include/mdds/flat_segment_tree_def.inl:insert_to_pos", "include/mdds/flat_segment_tree_def.inl:get_insertion_pos_leaf"]}
{"id": "C07", "title": "flat_segment_tree: shift_left", "statement": "shift_left(s,e) for min <= s < e <= max deletes [s,e) from the key axis: the value at k is unchanged for k < s, equals the old value at k+(e-s) for s <= k < max-(e-s), and is the default value on the freed tail; otherwise nothing changes.", "quantifier": "every reachable container, every s and e", "why_tests_cant": "interaction of the deleted interval with arbitrarily many segment boundaries and with both ends of the domain", "anchors": ["include/mdds/flat_segment_tree_def.inl:shift_left", "include/mdds/flat_segment_tree_def.inl:shift_leaf_key_left", "include/mdds/flat_segment_tree_def.inl:append_new_segment"]}
{"id": "C08", "title": "flat_segment_tree: shift_right", "statement": "shift_right(p,n,skip) for min <= p < max inserts n keys at p: values below p unchanged, the value at k >= p+n is the old value at k-n, and the inserted interval takes the default value (p = min), or extends the segment before p, or (skip, p on a segment start) keeps that segment start in place; keys pushed past max are dropped.", "quantifier": "every reachable container, every position, size and flag", "why_tests_cant": "segments pushed past the right end are removed or clipped; all alignments of the boundary matter", "anchors": ["include/mdds/flat_segment_tree_def.inl:shift_right", "include/mdds/flat_segment_tree_def.inl:shift_leaf_key_right", "include/mdds/flat_segment_tree.hpp:shift_leaf_key_right"]}
{"id": "C09", "title": "flat_segment_tree: iteration and segment ranges", "statement": "Forward iteration yields every stored (key,value) node in increasing key order starting with min_key and ending with max_key, reverse iteration is its exact reverse, and segment iteration yields contiguous [start,end) ranges that partition [min,max), each with the value of the function on that range; a segment iterator made from an iterator shows the segment that starts at its key.", "quantifier": "every reachable container", "why_tests_cant": "statement about all states and all iterator positions", "anchors": ["include/mdds/flat_segment_tree_itr.hpp:const_segment_iterator", "include/mdds/flat_segment_tree.hpp:begin", "include/mdds/flat_segment_tree.hpp:begin_segment"]}
{"id": "C10", "title": "flat_segment_tree: copy, assignment, swap and clear", "statement": "A copy represents the same function and is independent of its source; swap exchanges the two functions; clear resets to the default value on the same bounds; default_value/min_key/max_key survive.", "quantifier": "every reachable container", "why_tests_cant": "must hold for every stored content", "anchors": ["include/mdds/flat_segment_tree_def.inl:flat_segment_tree", "include/mdds/flat_segment_tree_def.inl:swap", "include/mdds/flat_segment_tree_def.inl:clear"]}
{"id": "C11", "title": "segment_tree: stabbing query is exact", "statement": "After build_tree(), search(p) returns exactly the values of the stored segments [s,e) with s <= p < e, each stored segment exactly once, for every point including points outside every segment.", "quantifier": "every list of inserted segments (any overlap, duplicates, shared boundaries), every query point", "why_tests_cant": "tree shape and node markings depend on all distinct boundaries; overlap patterns are unbounded", "anchors": ["include/mdds/segment_tree_def.inl:search", "include/mdds/segment_tree_def.inl:build_tree", "include/mdds/segment_tree_def.inl:descend_tree_and_mark", "include/mdds/node.hpp:tree_builder"]}
{"id": "C12", "title": "segment_tree: erase and rebuild", "statement": "erase_if(pred) removes exactly the segments for which pred holds and reports how many; a search after it (without rebuild when the tree is valid) returns exactly the remaining matching segments, and a rebuild gives the same answers.", "quantifier": "every list of segments, every predicate, every query point", "why_tests_cant": "erasure edits the per-node chains in place; the set of touched nodes varies with all segments", "anchors": ["include/mdds/segment_tree_def.inl:erase_if", "include/mdds/segment_tree_def.inl:remove_value_pos", "include/mdds/segment_tree_def.inl:search"]}
{"id": "C13", "title": "segment_tree: insert validation, size and validity flag", "statement": "insert rejects s >= e by throwing with no change, otherwise increments size() and makes the tree invalid; searching an invalid tree returns no results; empty()/size()/clear()/boundary_keys reflect exactly the stored segments.", "quantifier": "every history", "why_tests_cant": "history-dependent flags", "anchors": ["include/mdds/segment_tree_def.inl:insert", "include/mdds/segment_tree_def.inl:size", "include/mdds/segment_tree_def.inl:clear", "include/mdds/segment_tree_def.inl:boundary_keys"]}
{"id": "C14", "title": "segment_tree: equality", "statement": "Two segment trees compare equal iff they hold the same multiset of (start,end,value) segments.", "quantifier": "every pair of containers", "why_tests_cant": "multiset comparison over unordered storage; needs all multiplicity patterns", "anchors": ["include/mdds/segment_tree_def.inl:operator=="]}
{"id": "C15", "title": "sorted_string_map: lookup on a sorted table", "statement": "For a table sorted by key, find(key) returns the value of the first entry with that key and the null value iff no entry has it; size() is the number of entries.", "quantifier": "every sorted table, every key string", "why_tests_cant": "binary search over tables of any length and any pair of keys where one is a prefix of another", "anchors": ["include/mdds/sorted_string_map.hpp:sorted_string_map", "include/mdds/sorted_string_map_def.inl:find", "include/mdds/sorted_string_map_def.inl:size"]}
{"id": "C16", "title": "sorted_string_map: reverse lookup", "statement": "find_key(v) through the linear or the hash key finder returns a key mapped to v when one exists and an empty string otherwise; on tables with distinct values both are the inverse of find.", "quantifier": "every table, every value", "why_tests_cant": "two implementations, duplicates resolved differently", "anchors": ["include/mdds/sorted_string_map.hpp:linear_key_finder", "include/mdds/sorted_string_map.hpp:hash_key_finder"]}
{"id": "C17", "title": "trie_map: refines a finite map", "statement": "trie_map behaves as a finite map from strings to values: insert overwrites, exact lookup of a stored key returns its last inserted value, lookup of a key that is not stored fails, size() is the number of distinct stored keys, clear empties.", "quantifier": "every history of insert/erase/clear, every key", "why_tests_cant": "key sets with shared prefixes in any arrangement; histories unbounded", "anchors": ["include/mdds/trie_map_def.inl:insert", "include/mdds/trie_map_def.inl:insert_into_tree", "include/mdds/trie_map_def.inl:find_prefix_node", "include/mdds/trie_map_def.inl:find_prefix_node_with_stack", "include/mdds/trie_map_def.inl:size"]}
{"id": "C18", "title": "trie_map: erase", "statement": "erase(key) removes exactly that key (and no other), returns whether it was stored, and leaves no dead branches behind.", "quantifier": "every history, every key", "why_tests_cant": "the pruning of branches depends on which prefixes and extensions of the key are stored", "anchors": ["include/mdds/trie_map_def.inl:erase", "include/mdds/trie_map_def.inl:find_prefix_node_with_stack"]}
{"id": "C19", "title": "trie_map: prefix search and iteration order", "statement": "prefix_search(p) iterates exactly over the stored entries whose key starts with p, each once, in ascending lexicographic order; begin()..end() is prefix_search of the empty string.", "quantifier": "every stored key set, every prefix", "why_tests_cant": "ordering and completeness over all tries", "anchors": ["include/mdds/trie_map_def.inl:prefix_search", "include/mdds/trie_map_itr.hpp:iterator_base"]}
{"id": "C20", "title": "trie_map: backward iteration", "statement": "Decrementing an iterator is the inverse of incrementing it at every position.", "quantifier": "every stored key set, every iterator position", "why_tests_cant": "depends on the local shape around every position", "anchors": ["include/mdds/trie_map_itr.hpp:operator--"]}
{"id": "C21", "title": "packed_trie_map: packing preserves the map", "statement": "packing a trie_map (or constructing packed_trie_map from a sorted entry list) yields a packed trie whose exact lookup and prefix search give exactly the same entries, in the same order, as the source.", "quantifier": "every stored key set, every key and prefix", "why_tests_cant": "the packed form is an array of relative offsets whose layout depends on the whole trie", "anchors": ["include/mdds/trie_map_def.inl:packed_trie_map", "include/mdds/trie_map_def.inl:compact", "include/mdds/trie_map_def.inl:traverse_range", "include/mdds/trie_map_def.inl:find_prefix_node"]}
{"id": "C22", "title": "packed_trie_map: save/load round trip", "statement": "load_state(save_state(m)) equals m: every lookup, prefix search and size() agree.", "quantifier": "every packed trie and every value content (fixed- and variable-size values)", "why_tests_cant": "byte layout for all contents", "anchors": ["include/mdds/trie_map_def.inl:save_state", "include/mdds/trie_map_def.inl:load_state", "include/mdds/trie_map.hpp:numeric_value_serializer", "include/mdds/trie_map.hpp:variable_value_serializer"]}
{"id": "C23", "title": "multi_type_vector: single-element set is pointwise update", "statement": "Viewing the container as a sequence of optional typed values, set(pos,v) replaces exactly position pos by v, keeps the length, and throws out_of_range with no change when pos >= size(); the returned iterator designates the block that now contains pos.", "quantifier": "every container state reachable by any history, every position, every value of every element type", "why_tests_cant": "set has a case analysis over the position in the block and the types of both neighbours; unbounded block layouts", "anchors": ["include/mdds/multi_type_vector/soa/main_def.inl:set_impl", "include/mdds/multi_type_vector/soa/main_def.inl:set_cell_to_empty_block", "include/mdds/multi_type_vector/soa/main_def.inl:set_cell_to_non_empty_block_of_size_one", "include/mdds/multi_type_vector/soa/main_def.inl:create_new_block_with_new_cell"]}
{"id": "C24", "title": "multi_type_vector: range set is pointwise update", "statement": "set(pos,begin,end) replaces exactly positions pos..pos+n-1 by the given values, keeps everything else and the length, throws with no change when the range does not fit, and is a no-op for an empty range.", "quantifier": "every reachable state, every position, every value sequence", "why_tests_cant": "range may start, end and span any number of blocks of any type", "anchors": ["include/mdds/multi_type_vector/soa/main_def.inl:set_cells_impl", "include/mdds/multi_type_vector/soa/main_def.inl:set_cells_to_single_block", "include/mdds/multi_type_vector/soa/main_def.inl:set_cells_to_multi_blocks", "include/mdds/multi_type_vector/soa/main_def.inl:set_cells_to_multi_blocks_block1_non_equal", "include/mdds/multi_type_vector/soa/main_def.inl:set_cells_to_multi_blocks_block1_non_empty", "include/mdds/multi_type_vector/soa/main_def.inl:append_to_prev_block"]}
{"id": "C25", "title": "multi_type_vector: insertion of values and of empty elements", "statement": "insert(pos,begin,end) and insert_empty(pos,n) insert exactly the given elements before position pos, shifting the tail by n, and throw with no change when pos is out of range.", "quantifier": "every reachable state, every position, every value sequence", "why_tests_cant": "splits and merges blocks depending on layout", "anchors": ["include/mdds/multi_type_vector/soa/main_def.inl:insert_cells_impl", "include/mdds/multi_type_vector/soa/main_def.inl:insert_cells_to_middle", "include/mdds/multi_type_vector/soa/main_def.inl:insert_empty_impl", "include/mdds/multi_type_vector/soa/main_def.inl:insert_blocks_at"]}
{"id": "C26", "title": "multi_type_vector: set_empty", "statement": "set_empty(a,b) makes exactly positions a..b empty and keeps everything else; throws for a > b or b >= size().", "quantifier": "every reachable state and every range", "why_tests_cant": "emptied range may cover parts of any number of blocks and merges with empty neighbours", "anchors": ["include/mdds/multi_type_vector/soa/main_def.inl:set_empty_impl", "include/mdds/multi_type_vector/soa/main_def.inl:set_empty_in_single_block", "include/mdds/multi_type_vector/soa/main_def.inl:set_empty_in_multi_blocks", "include/mdds/multi_type_vector/soa/main_def.inl:set_whole_block_empty"]}
{"id": "C27", "title": "multi_type_vector: erase", "statement": "erase(a,b) removes exactly positions a..b, the tail moves down by b-a+1; throws for a > b or b >= size().", "quantifier": "every reachable state and every range", "why_tests_cant": "boundary blocks of equal type must be merged, every alignment", "anchors": ["include/mdds/multi_type_vector/soa/main_def.inl:erase_impl", "include/mdds/multi_type_vector/soa/main_def.inl:erase_in_single_block", "include/mdds/multi_type_vector/soa/main_def.inl:delete_element_blocks", "include/mdds/multi_type_vector/soa/main_def.inl:merge_with_next_block"]}
{"id": "C28", "title": "multi_type_vector: append and resize", "statement": "push_back/emplace_back/push_back_empty append exactly one element; resize(n) truncates or pads with empty elements; clear empties.", "quantifier": "every reachable state, every size", "why_tests_cant": "history dependent block layout", "anchors": ["include/mdds/multi_type_vector/soa/main_def.inl:push_back_impl", "include/mdds/multi_type_vector/soa/main_def.inl:push_back_empty", "include/mdds/multi_type_vector/soa/main_def.inl:resize_impl", "include/mdds/multi_type_vector/soa/main_def.inl:clear", "include/mdds/multi_type_vector/soa/main_def.inl:append_empty"]}
{"id": "C29", "title": "multi_type_vector: reads agree with the abstract sequence", "statement": "get/get_type/is_empty/position at any logical position return the value, type and (block, offset) of that element; out-of-range positions throw; next_position/advance_position move by exactly the requested number of logical positions; logical_position inverts position.", "quantifier": "every reachable state, every position and step count", "why_tests_cant": "block lookup is a binary search over positions kept consistent by every mutation", "anchors": ["include/mdds/multi_type_vector/soa/main_def.inl:get_block_position", "include/mdds/multi_type_vector/soa/main_def.inl:get", "include/mdds/multi_type_vector/soa/main_def.inl:get_type", "include/mdds/multi_type_vector/soa/main_def.inl:is_empty", "include/mdds/multi_type_vector/soa/main_def.inl:position", "include/mdds/multi_type_vector/util.hpp:advance_position"]}
{"id": "C30", "title": "multi_type_vector: block structure stays canonical", "statement": "After any history the blocks are contiguous from 0 to size(), none is zero-sized, every non-empty block holds exactly its size in elements, and no two adjacent blocks have the same type.", "quantifier": "every history of mutations", "why_tests_cant": "an invariant over unbounded histories (the library's own check_integrity is only a debug aid)", "anchors": ["include/mdds/multi_type_vector/soa/main_def.inl:check_block_integrity", "include/mdds/multi_type_vector/soa/main_def.inl:merge_with_adjacent_blocks", "include/mdds/multi_type_vector/soa/main_def.inl:merge_with_next_block"]}
{"id": "C31", "title": "multi_type_vector: equality is equality of sequences", "statement": "Two containers compare equal iff they have the same length and the same typed value at every position.", "quantifier": "every pair of reachable containers", "why_tests_cant": "equality compares blocks; that this is extensional rests on canonicity for every history", "anchors": ["include/mdds/multi_type_vector/soa/main_def.inl:operator==", "include/mdds/multi_type_vector/soa/main_def.inl:equals"]}
{"id": "C32", "title": "multi_type_vector: position hints are transparent", "statement": "Every operation that takes a position hint gives exactly the result of the same operation without the hint, whatever valid (possibly stale but in-range) iterator of the container is passed.", "quantifier": "every reachable non-empty state, every hint, every operation", "why_tests_cant": "hints range over all blocks, before and after the target", "anchors": ["include/mdds/multi_type_vector/soa/main_def.inl:get_block_position"]}
{"id": "C33", "title": "multi_type_vector: transfer", "statement": "transfer(a,b,dest,d) moves elements a..b of the source to positions d.. of dest (dest elements there are replaced), leaves the source range empty, keeps everything else in both containers, and throws with no change when a range is invalid.", "quantifier": "every pair of reachable containers, every range and target", "why_tests_cant": "two block layouts with independent alignments", "anchors": ["include/mdds/multi_type_vector/soa/main_def.inl:transfer_impl", "include/mdds/multi_type_vector/soa/main_def.inl:transfer_single_block", "include/mdds/multi_type_vector/soa/main_def.inl:transfer_multi_blocks"]}
{"id": "C34", "title": "multi_type_vector: range swap", "statement": "swap(a,b,other,d) exchanges elements a..b with other's elements d..d+(b-a), keeps everything else in both.", "quantifier": "every pair of distinct reachable containers, every range and target", "why_tests_cant": "single/single, single/multi and multi/multi block cases with all alignments", "anchors": ["include/mdds/multi_type_vector/soa/main_def.inl:swap_impl", "include/mdds/multi_type_vector/soa/main_def.inl:swap_single_block", "include/mdds/multi_type_vector/soa/main_def.inl:swap_single_to_multi_blocks", "include/mdds/multi_type_vector/soa/main_def.inl:swap_multi_to_multi_blocks", "include/mdds/multi_type_vector/soa/main_def.inl:exchange_elements", "include/mdds/multi_type_vector/soa/main_def.inl:prepare_blocks_to_transfer"]}
{"id": "C35", "title": "multi_type_vector: release hands over exactly one element", "statement": "release(pos) returns the element at pos and leaves that position empty without destroying the returned object; release_range(a,b)/release() empty the range without destroying its objects.", "quantifier": "every reachable state, every position and range", "why_tests_cant": "ownership of individual objects across all layouts", "anchors": ["include/mdds/multi_type_vector/soa/main_def.inl:release_impl", "include/mdds/multi_type_vector/soa/main_def.inl:release_range", "include/mdds/multi_type_vector/soa/main_def.inl:release"]}
{"id": "C36", "title": "multi_type_vector: managed objects are destroyed exactly once", "statement": "For managed element blocks, every object handed to the container is destroyed exactly once when overwritten, erased, emptied, resized away or when the container dies, and never while still stored or after having been released or moved to another container.", "quantifier": "every history over managed blocks", "why_tests_cant": "every block-splitting path must account for each object exactly once", "anchors": ["include/mdds/multi_type_vector/types.hpp:managed_element_block", "include/mdds/multi_type_vector/types.hpp:overwrite_values", "include/mdds/multi_type_vector/soa/main_def.inl:resize_impl", "include/mdds/multi_type_vector/soa/main_def.inl:set_cells_to_multi_blocks_block1_non_empty", "include/mdds/multi_type_vector/soa/main_def.inl:exchange_elements"]}
{"id": "C37", "title": "multi_type_vector: block events pair up", "statement": "The event handler sees element_block_acquired and element_block_released such that at any time the blocks acquired and not yet released are exactly the element blocks the container holds.", "quantifier": "every history of mutations including transfers, swaps and copies", "why_tests_cant": "each branch that creates or drops a block must notify once", "anchors": ["include/mdds/multi_type_vector/util.hpp:empty_event_func", "include/mdds/multi_type_vector/soa/main_def.inl:insert_cells_impl", "include/mdds/multi_type_vector/soa/main_def.inl:delete_element_block"]}
{"id": "C38", "title": "multi_type_vector: copy-on-write isolation", "statement": "With copy-on-write enabled, mutating a container never changes what any copy of it shows, every block is freed exactly once (when its last user is gone), and a block is never used after being freed.", "quantifier": "every history of copy/clone/assign/move/swap/mutate/destroy over any number of containers", "why_tests_cant": "interleavings of sharing and detaching over any number of instances", "anchors": ["design/multi-type-vector-cow.md", "include/mdds/multi_type_vector/soa/main_def.inl:share", "include/mdds/multi_type_vector/soa/main_def.inl:detach_impl", "include/mdds/multi_type_vector/soa/main_def.inl:delete_element_block"]}
{"id": "C39", "title": "multi_type_vector: position adjustment kernels agree", "statement": "Every loop-unrolled variant of the block position adjustment adds delta to exactly the positions from the start index to the end.", "quantifier": "every position array length, start index, delta and unrolling factor", "why_tests_cant": "remainder handling depends on the length modulo the unrolling factor", "anchors": ["include/mdds/multi_type_vector/soa/block_util.hpp:adjust_block_positions"]}
{"id": "C40", "title": "delayed_delete_vector refines a plain vector", "statement": "Every operation of delayed_delete_vector (front erase is delayed) has the same observable effect as on a plain vector.", "quantifier": "every history of operations", "why_tests_cant": "the hidden front offset must be respected by every operation in every state", "anchors": ["include/mdds/multi_type_vector/delayed_delete_vector.hpp:delayed_delete_vector"]}
{"id": "C41", "title": "multi_type_matrix: element access", "statement": "For an r x c matrix, set(i,j,v) changes exactly element (i,j), get/get_type/get_numeric/get_string of (i,j) return the last value set there with the documented conversions, set_column/set_column_empty/set_row_empty/set_empty change exactly their elements.", "quantifier": "every matrix size, every in-range row/column, every history", "why_tests_cant": "row/column arithmetic for all sizes", "anchors": ["include/mdds/multi_type_matrix_def.inl:set", "include/mdds/multi_type_matrix_def.inl:get_numeric", "include/mdds/multi_type_matrix_def.inl:set_column", "include/mdds/multi_type_matrix_def.inl:set_row_empty", "include/mdds/multi_type_matrix.hpp:get_pos"]}
{"id": "C42", "title": "multi_type_matrix: transpose", "statement": "transpose() makes element (j,i) of the result equal element (i,j) of the source for matrices without integer elements; transposing twice is the identity.", "quantifier": "every size and content", "why_tests_cant": "all sizes", "anchors": ["include/mdds/multi_type_matrix_def.inl:transpose"]}
{"id": "C43", "title": "multi_type_matrix: copy and resize keep the overlapping region", "statement": "copy(src) overwrites exactly the overlapping top-left region; resize(r,c[,v]) keeps the overlap and fills the rest with empty (or v); resizing to zero rows or columns gives 0 x 0.", "quantifier": "every pair of sizes and contents", "why_tests_cant": "overlap geometry versus block layout of two matrices", "anchors": ["include/mdds/multi_type_matrix_def.inl:copy", "include/mdds/multi_type_matrix_def.inl:resize"]}
{"id": "C44", "title": "multi_type_matrix: walk visits each element once", "statement": "walk(func) and the sub-range and parallel variants present every element of the requested region exactly once, in column-major order, in pieces that never cross block boundaries.", "quantifier": "every size, content and sub-range", "why_tests_cant": "block boundaries versus column boundaries", "anchors": ["include/mdds/multi_type_matrix_def.inl:walk"]}
{"id": "C45", "title": "collection: sideways traversal", "statement": "Iterating a collection visits, for each element position of the element range in order, each vector of the collection range in order, exactly once, with the type and value stored there; invalid ranges and vectors of different length are rejected.", "quantifier": "every family of equally long vectors, every sub-range", "why_tests_cant": "cached per-vector block positions advance independently", "anchors": ["include/mdds/multi_type_vector/collection_def.inl:side_iterator", "include/mdds/multi_type_vector/collection_def.inl:collection"]}
{"id": "C46", "title": "point_quad_tree: region search is exact", "statement": "search_region(x1,y1,x2,y2) returns exactly the data of the stored points with x1 <= x <= x2 and y1 <= y <= y2, each once, whatever the insertion order.", "quantifier": "every insertion history, every rectangle", "why_tests_cant": "tree shape depends on insertion order; pruning conditions at each level", "anchors": ["include/mdds/point_quad_tree.hpp:search_region", "include/mdds/point_quad_tree.hpp:search_region_node", "include/mdds/quad_node.hpp:get_quadrant"]}
{"id": "C47", "title": "point_quad_tree: finite map from points", "statement": "insert stores or overwrites the value at (x,y); find returns it and throws data_not_found iff no value is stored at (x,y); size/empty/clear agree.", "quantifier": "every history of insertions, every point", "why_tests_cant": "all insertion orders", "anchors": ["include/mdds/point_quad_tree.hpp:insert", "include/mdds/point_quad_tree.hpp:find", "include/mdds/point_quad_tree.hpp:find_node", "include/mdds/point_quad_tree.hpp:size"]}
{"id": "C48", "title": "point_quad_tree: remove", "statement": "remove(x,y) removes exactly the point at (x,y) and keeps all others findable.", "quantifier": "every history, every point", "why_tests_cant": "the replacement search and reinsertion depend on the whole subtree", "anchors": ["include/mdds/point_quad_tree.hpp:remove", "include/mdds/point_quad_tree.hpp:find_replacement_node", "include/mdds/point_quad_tree.hpp:adjust_quad", "include/mdds/point_quad_tree.hpp:set_new_root", "include/mdds/point_quad_tree.hpp:insert_node"]}
{"id": "C49", "title": "point_quad_tree: copy, assignment and equality", "statement": "Copy and assignment give a tree with the same content, and two trees compare equal iff they store the same points with the same data.", "quantifier": "every pair of reachable trees", "why_tests_cant": "equality is by sorted content, independent of shape", "anchors": ["include/mdds/point_quad_tree.hpp:operator==", "include/mdds/point_quad_tree.hpp:operator=", "include/mdds/point_quad_tree.hpp:get_all_stored_data"]}
{"id": "C50", "title": "rtree: search is exact", "statement": "search(point or extent, overlap or match) returns exactly the stored values whose bounding box overlaps (or equals) the query, each once.", "quantifier": "every tree reachable by insertion, erasure and bulk loading; every query; every dimension", "why_tests_cant": "the tree shape depends on the entire history; pruning must never lose a value", "anchors": ["include/mdds/rtree_def.inl:search", "include/mdds/rtree_def.inl:search_descend", "include/mdds/rtree.hpp:search_type"]}
{"id": "C51", "title": "rtree: insertion adds exactly one entry", "statement": "insert(extent,value) adds exactly that entry and keeps all others, including when nodes split or entries are re-inserted; size() grows by one.", "quantifier": "every reachable tree, every entry, every node-capacity configuration", "why_tests_cant": "splits, forced reinsertion and overflow cascades", "anchors": ["include/mdds/rtree_def.inl:insert", "include/mdds/rtree_def.inl:insert_impl", "include/mdds/rtree_def.inl:split_node", "include/mdds/rtree_def.inl:perform_forced_reinsertion", "include/mdds/rtree_def.inl:pick_optimal_distribution"]}
{"id": "C52", "title": "rtree: erase removes exactly one entry", "statement": "erase(pos) for a position found by search removes exactly that entry and keeps all others.", "quantifier": "every reachable tree, every stored entry", "why_tests_cant": "underflowing nodes are dissolved and their entries re-inserted", "anchors": ["include/mdds/rtree_def.inl:erase_impl", "include/mdds/rtree_def.inl:dissolve"]}
{"id": "C53", "title": "rtree: bounding boxes are tight", "statement": "Every directory's bounding box is the exact bounding box of the entries below it, and extent() is the bounding box of all entries.", "quantifier": "every tree built by insertion and bulk loading", "why_tests_cant": "bounding boxes are updated incrementally along the path", "anchors": ["include/mdds/rtree_def.inl:enlarge_extent_to_fit", "include/mdds/rtree_def.inl:calc_extent", "include/mdds/rtree_def.inl:check_integrity"]}
{"id": "C54", "title": "rtree: node occupancy and depth", "statement": "After any sequence of insertions every leaf directory holds at most max_node_size values, every split part holds at least min_node_size, and all values sit at the same depth.", "quantifier": "every insertion history", "why_tests_cant": "structure depends on the history", "anchors": ["include/mdds/rtree_def.inl:split_node", "include/mdds/rtree_def.inl:exceeds_capacity", "include/mdds/rtree_def.inl:distribution"]}
{"id": "C55", "title": "rtree: bulk loading stores exactly the given entries", "statement": "bulk_loader::pack() builds a tree that contains exactly the inserted entries, respects the node capacity, and answers searches exactly.", "quantifier": "every list of entries, every capacity configuration", "why_tests_cant": "tiling arithmetic for every count and dimension", "anchors": ["include/mdds/rtree_def.inl:bulk_loader", "include/mdds/rtree_def.inl:pack_level", "include/mdds/rtree_def.inl:calc_optimal_segment_size_for_pack"]}
{"id": "C56", "title": "failed calls leave the multi_type_vector unchanged", "statement": "When a multi_type_vector operation throws because of its arguments (out-of-range position, inverted range, too long input, wrong container), the container(s) involved show exactly the same content as before.", "quantifier": "every reachable state, every invalid argument combination of every operation", "why_tests_cant": "all argument/state combinations", "anchors": ["include/mdds/multi_type_vector/soa/main_def.inl:set_impl", "include/mdds/multi_type_vector/soa/main_def.inl:erase_impl", "include/mdds/multi_type_vector/soa/main_def.inl:transfer_impl", "include/mdds/multi_type_vector/soa/main_def.inl:swap_impl"]}
{"id": "C57", "title": "multi_type_vector: both storage layouts behave alike", "statement": "The array-of-structures and structure-of-arrays implementations give the same observable results for the same history.", "quantifier": "every history of operations", "why_tests_cant": "two independent 5000-line implementations", "anchors": ["include/mdds/multi_type_vector/aos/main_def.inl:set_impl", "include/mdds/multi_type_vector/soa/main_def.inl:set_impl", "include/mdds/multi_type_vector/aos/main_def.inl:erase_impl"]}
{"id": "C58", "title": "packed_trie_map: equality is equality of contents", "statement": "Two packed_trie_map containers compare equal iff they hold the same keys with the same values.", "quantifier": "every pair of packed containers", "why_tests_cant": "equality walks both packed buffers in step; that this decides equality of the contents depends on the iteration order for every trie shape", "anchors": ["include/mdds/trie_map_def.inl:operator=="]}
{"id": "C59", "title": "multi_type_matrix: equality is equality of the tables", "statement": "Two matrices compare equal iff they have the same size and the same element at every row and column.", "quantifier": "every pair of reachable matrices", "why_tests_cant": "equality compares the block lists of the value stores; that this decides equality of the elements depends on every history keeping the blocks maximal", "anchors": ["include/mdds/multi_type_matrix_def.inl:operator=="]}
{"id": "C60", "title": "packed_trie_map: copies show the same contents", "statement": "A packed_trie_map that was copy-constructed, copy-assigned or moved from another one answers every lookup, prefix search and iteration as the other one did and compares equal to it; copying leaves the source unchanged.", "quantifier": "every packed container and every chain of copies of it", "why_tests_cant": "the copy is rebuilt by a traversal that renumbers the values; that it encodes the same map must hold for every trie shape", "anchors": ["include/mdds/trie_map_def.inl:packed_trie_map::packed_trie_map(const packed_trie_map&)", "include/mdds/trie_map_itr.hpp:traverse_tree"]}
{"id": "C61", "title": "packed_trie_map: search results are values", "statement": "Copying, moving or assigning the result of a prefix search gives a result that iterates over the same entries.", "quantifier": "every packed container, prefix, and result object copied, moved or assigned", "why_tests_cant": "tests iterate over the returned temporary only; a copy that lost part of its state is only seen when it is used", "anchors": ["include/mdds/trie_map_itr.hpp:packed_search_results"]}
{"id": "C62", "title": "flat_segment_tree: memory safety and no leaks", "statement": "Whatever containers a program makes, copies, moves, assigns, swaps, fills, shifts, clears and destroys, in whatever order, no call reads, writes or releases a segment node that was already deleted or follows a null pointer; walking a container forwards and walking it backwards show the same segments; containers never share nodes; a node is deleted exactly when its last owner lets go, so when the last container is gone no node is left.", "quantifier": "every finite sequence of calls on any number of flat_segment_trees, with any keys and values", "why_tests_cant": "nodes are reference-counted and linked both ways: whether a cycle keeps a node alive, or a node dies while still linked, depends on the order of every link update in the history; a test sees one history, and a leak not at all", "anchors": ["include/mdds/flat_segment_tree_def.inl:destroy", "include/mdds/flat_segment_tree_def.inl:insert_to_pos", "include/mdds/flat_segment_tree_def.inl:shift_leaves", "include/mdds/node.hpp:disconnect_leaf_nodes", "include/mdds/node.hpp:intrusive_ptr_release", "include/mdds/node.hpp:link_nodes"]}
{"id": "C63", "title": "packed_trie_map: a saved state with its end missing is not taken for a map", "statement": "Loading a saved state of which bytes at the end are missing (a full disk, an interrupted transfer) raises an exception; it is not accepted as a map, and reading it ends and stays within what was read.", "quantifier": "every saved map, every value type with a lawful serializer, every size of the packed cells, every length of the remaining prefix, every container the prefix is loaded into", "why_tests_cant": "the outcome depends on the exact byte the stream ends at and on the bytes before it; tests load complete streams", "anchors": ["include/mdds/trie_map_def.inl:load_state", "include/mdds/trie_map_def.inl:read_values_from_istream", "include/mdds/trie_map_def.inl:bin_value"]}
{"id": "C64", "title": "rtree: a tree that passes check_integrity answers searches exactly", "statement": "check_integrity() returns normally exactly when the tree is in order: the root is a directory without parent, every directory records its true number of children, holds no more than the maximum and (unless it is a root that is a leaf) no fewer than the minimum, its box is the exact bounding box of its children, and every child points back to it. Every search on a tree that passes reports exactly the stored entries that match, each once; so a tree on which some search goes wrong never passes.", "quantifier": "every tree of any shape, from whatever history, every configuration of node sizes and dimensions, every query point and box", "why_tests_cant": "tests run the check on sound trees; that no broken tree slips through is a statement about all broken trees", "anchors": ["include/mdds/rtree_def.inl:check_integrity", "include/mdds/rtree_def.inl:search"]}
{"id": "C65", "title": "point_quad_tree: nodes are never used after they are freed and never leaked", "statement": "Whatever a program does with any number of quad trees (construct, copy, assign, swap, insert, remove, clear, destroy), no freed node and no null pointer is followed, no two containers share a node, every node in memory belongs to a container that is still in use, and nothing is left in memory when the last container is gone.", "quantifier": "every program over any number of containers, every sequence of calls, every points and data", "why_tests_cant": "ownership is by reference counts with parent pointers that own as well, so a leak needs a particular shape of the tree before a removal; unit tests do not count nodes", "anchors": ["include/mdds/quad_node.hpp:intrusive_ptr_release", "include/mdds/quad_node.hpp:disconnect_all_nodes", "include/mdds/quad_node.hpp:disconnect_node_from_parent", "include/mdds/point_quad_tree.hpp:remove", "include/mdds/point_quad_tree.hpp:insert"]}
{"id": "C66", "title": "flat_segment_tree: shifting works in fixed-width key types", "statement": "With keys of a built-in integer type, shift_left and shift_right give the result they would give with keys that never overflow: a segment pushed past the end disappears and never comes back elsewhere, and no call whose arguments lie in the container has undefined behaviour. Hence everything said about the container with unbounded keys holds for it.", "quantifier": "every integer key type (signed or unsigned, any width), every container whose borders are keys, every history of calls, every shift position and size", "why_tests_cant": "an overflow needs a container near the end of the key range and a shift large enough; unit tests use small numbers and cannot cover all widths", "anchors": ["include/mdds/flat_segment_tree.hpp:shift_leaf_key_right", "include/mdds/flat_segment_tree.hpp:shift_leaf_key_left", "include/mdds/flat_segment_tree_def.inl:shift_left", "include/mdds/flat_segment_tree_def.inl:shift_right"]}
{"id": "C67", "title": "point_quad_tree: a search result can be walked in both directions and kept", "statement": "The object returned by a region search shows, from begin() to end(), exactly the points the search found, in order, and backwards from end() the same points in reverse; it stays usable while points are inserted, and shows the data stored at these positions at that time.", "quantifier": "every program over any number of containers, every region, every continuation of the program that does not remove from the searched container", "why_tests_cant": "the result holds plain pointers to nodes, so what it shows depends on everything the program does between the search and the walk; the tests walk forwards and at once", "anchors": ["include/mdds/point_quad_tree.hpp:search_results", "include/mdds/point_quad_tree.hpp:const_iterator", "include/mdds/point_quad_tree.hpp:search_region"]}
{"id": "C68", "title": "point_quad_tree: node access shows the whole tree", "statement": "Walking from get_node_access() in the four directions shows every stored point exactly once with its data, each in the direction in which it lies, and never reads a freed node.", "quantifier": "every program over any number of containers", "why_tests_cant": "the shape depends on the whole history of insertions and removals", "anchors": ["include/mdds/point_quad_tree.hpp:node_access", "include/mdds/point_quad_tree.hpp:get_node_access"]}
{"id": "C69", "title": "segment_tree: nodes are never used after they are freed and never leaked", "statement": "Whatever a program does with any number of segment trees and search results (construct, copy, move, assign, swap, insert, build, search, read a result, erase, clear, check, destroy), as long as no result is used after its container was rebuilt, erased from, swapped, moved or destroyed, no freed node and no null pointer is followed, the pool of tree nodes is never overrun and has no node too many, containers share nothing, the answers are those of the trees taken as values, and nothing is left in memory when the last container is gone.", "quantifier": "every program over any number of containers and search results, every sequence of calls, every segment and point", "why_tests_cant": "leaves are counted references and tree nodes are plain pointers into a vector sized beforehand by a separate computation; a mistake shows only for particular sizes and orders of calls, and the tests neither count nodes nor use moved-from trees", "anchors": ["include/mdds/segment_tree_def.inl:build_tree", "include/mdds/segment_tree_def.inl:descend_tree_and_mark", "include/mdds/segment_tree_def.inl:swap", "include/mdds/segment_tree.hpp:segment_tree", "include/mdds/node.hpp:tree_builder", "include/mdds/node.hpp:count_needed_nonleaf_nodes"]}
{"id": "C70", "title": "segment_tree: a search result can be kept while the tree is not changed", "statement": "The object returned by a search shows, when it is read later, the segments that were stored in the tree at the time of the search and contain the point, each once, no matter what was done in between with other trees, which further searches were made and which segments were inserted (and not built into the tree yet).", "quantifier": "every program before the search, every program between the search and the reading that does not build, erase from, clear, swap, move or destroy the searched container", "why_tests_cant": "the result holds plain pointers into nodes and into the store of the container, so what it shows depends on everything done in between; the tests read it at once", "anchors": ["include/mdds/segment_tree.hpp:search_results", "include/mdds/segment_tree.hpp:search_results_base", "include/mdds/segment_tree_def.inl:search", "include/mdds/segment_tree_def.inl:insert"]}
{"id": "C71", "title": "flat_segment_tree: searches and iterators never use freed nodes and tell the truth", "statement": "Whatever a program does with any number of containers (construct, copy, move, assign, swap, clear, destroy, insert, shift), with their search trees (build, search) and with iterators (obtained from searches or begin, advanced, read, given back as positions of later searches), as long as an iterator is not used after its container was changed and is advanced or given back only to the container it was made by while that one has its leaves, no freed node and no null pointer is followed; the tree is used only if it fits the leaves; every search reports the segment that contains the key, with the tree, without it and from any position; and when the containers are gone no node is left.", "quantifier": "every program over any number of containers and kept iterators, every sequence of calls, every key and position", "why_tests_cant": "tree nodes are plain pointers to leaves and sit in a vector that is moved and swapped between containers; iterators are plain pointers to leaves and remember the container; a mistake shows only for particular orders of swap, move, change, build and search", "anchors": ["include/mdds/flat_segment_tree_def.inl:build_tree", "include/mdds/flat_segment_tree_def.inl:search_tree", "include/mdds/flat_segment_tree_def.inl:search_tree_for_leaf_node", "include/mdds/flat_segment_tree_def.inl:search", "include/mdds/flat_segment_tree_def.inl:swap", "include/mdds/flat_segment_tree_itr.hpp:const_iterator_base"]}
{"id": "C72", "title": "trie_map: iterators kept while the map changes", "statement": "An iterator of a trie map that a program keeps while keys are inserted, erased or the map is cleared goes on showing the current value of its key until that key is erased; a value assigned through it becomes the value of its key and changes nothing else; moving it forward or backward leads to the neighbouring key of the current map, end iterators stay end iterators, and two iterators compare equal exactly when they stand at the same key.", "quantifier": "all programs: any interleaving of insert, erase, clear, begin, end, find, ++, --, copies of iterators, dereferencing, assigning through iterators and comparison, any number of iterators, any keys", "why_tests_cant": "whether a kept iterator is still usable depends on the whole history of changes since it was placed, on where the changed keys lie relative to its key, and on node lifetimes; tests run a few such histories and cannot see dangling positions", "anchors": ["include/mdds/trie_map_itr.hpp:iterator_base", "include/mdds/trie_map_def.inl:trie_map::begin, end, find, insert, erase, clear", "include/mdds/trie_map.hpp:stack_item"]}
{"id": "C73", "title": "multi_type_vector element blocks: every call is one list operation and nothing is lost or deleted twice", "statement": "A program may create, copy, clone, compare, change and delete element blocks of any registered block classes (plain, managed, noncopyable managed; stored in std::vector or delayed_delete_vector), through the dispatcher by block type and through the functions of the class. Each call does to the elements of the block exactly what one list operation does, answers accordingly, and creates or destroys exactly the managed objects it should; a call that throws leaves every block and every object as it was; a copy owns objects of its own and equals its source.", "quantifier": "all programs of calls on any number of blocks, all class registrations with distinct ids, all elements, any element copy and any clone_value call that throws", "why_tests_cant": "ownership of raw pointers and elements kept hidden by delayed deletion are not visible through the API; the outcome depends on the history of each block and on which element copy throws", "anchors": ["include/mdds/multi_type_vector/types.hpp:element_block, copyable_element_block, noncopyable_element_block, default_element_block, managed_element_block, noncopyable_managed_element_block, clone_block", "include/mdds/multi_type_vector/block_funcs.hpp:element_block_funcs", "include/mdds/multi_type_vector/delayed_delete_vector.hpp:at"]}
{"id": "C74", "title": "multi_type_vector: iterators kept, walked, compared and passed as hints", "statement": "Walking an iterator of any of the four kinds from begin to end shows every block of the container once, in order, and stops. A program may keep iterators, copy and convert them, move them back and forth, compare them and pass them as position hints, while containers are changed, swapped, moved and destroyed: nothing undefined happens as long as an iterator is not moved or compared after a call that moved the blocks; a hint never changes what a call does, whichever iterator is passed; the iterator a call returns shows the block that holds the position; a usable iterator shows its block as it is, and iterators at one block are equal.", "quantifier": "all programs: any number of containers and iterators, any interleaving of calls, iterator operations, swaps and moves", "why_tests_cant": "an iterator keeps a copy of its block's description and the address of its container; whether they are still right depends on everything done since, and stale hints are silently accepted", "anchors": ["include/mdds/multi_type_vector/soa/iterator.hpp:iterator_updater, iterator_base, const_iterator_base, reverse_iterator_base", "include/mdds/multi_type_vector/aos/iterator.hpp:iterator_common_base, iterator_base, const_iterator_base", "include/mdds/multi_type_vector/iterator_node.hpp:iterator_value_node", "include/mdds/multi_type_vector/soa/main_def.inl:get_block_position, next_position, logical_position, swap, transfer"]}
{"id": "C75", "title": "multi_type_vector collection: traversal while the containers change", "statement": "A loop over a collection may change the containers in its body, after reading the element: as long as no container gets shorter than the range of positions, the loop still visits every place of the range exactly once, in the same order, and shows at each place the value that is there when the place is reached. If a container has become too short, advancing to a missing position throws.", "quantifier": "every collection after any history, every change of every container in every round of the loop", "why_tests_cant": "the iterator keeps a block hint for every container that may be stale after any change; tests never change a container during a traversal", "anchors": ["include/mdds/multi_type_vector/collection_def.inl:side_iterator::operator++", "include/mdds/multi_type_vector/collection.hpp:mtv_item"]}
{"id": "C76", "title": "trie_map as an object: copies, moves, swaps and kept search results", "statement": "Trie maps behave as independent objects: a copy holds the same entries and is not affected by later changes of the original, a move or swap hands the entries over, a map that was moved from is empty. A prefix search result or node handle that a program keeps while the maps are changed, copied, moved, assigned or swapped goes on showing the entries with its prefix that are stored at the time it is used.", "quantifier": "all programs: any number of maps, any interleaving of construction, copy, move, assignment, swap, destruction, insert, erase, clear, prefix searches, node handles and loops over kept results, any keys", "why_tests_cant": "whether a kept result is usable depends on the whole history since the search and on which object owns the nodes now; tests use a result immediately and cannot see dangling nodes", "anchors": ["include/mdds/trie_map_def.inl:trie_map(const trie_map&), trie_map(trie_map&&), operator=, swap, trie_node, prefix_search, root_node, const_node_type", "include/mdds/trie_map_itr.hpp:search_results"]}
{"id": "C77", "title": "packed_trie_map as an object: node handles and search results kept while maps are copied, moved and swapped", "statement": "Packed maps are values: a copy or an assigned map holds the same entries, a move or swap hands the entries over, none of this changes any entry. A node handle or prefix search result that a program keeps while the maps are copied, moved, assigned, swapped or destroyed goes on showing the keys and values it showed before, as long as the contents it was obtained from exist.", "quantifier": "all programs: any number of packed maps, any interleaving of construction, copy, move, assignment, swap, destruction, node walks, prefix searches and loops over kept results, any keys and values, any cell type", "why_tests_cant": "whether a kept handle is usable depends on every move and swap since it was obtained, and a wrong value is read silently from whatever the map object holds now; tests use handles immediately", "anchors": ["include/mdds/trie_map_def.inl:packed_trie_map::const_node_type, packed_trie_map(packed_trie_map&&), operator=, swap, root_node, prefix_search", "include/mdds/trie_map_itr.hpp:packed_search_results"]}
{"id": "C78", "title": "rtree: assigning through a search result changes that value and nothing else", "statement": "Assigning a value through an iterator of any search result (`*it = v`) of any rtree succeeds and changes the value of exactly that entry: the other entries, the number of entries, the bounding extent, the nodes shown by walk, and the entries and order of every later search are the same, with the new value in place of the old one. Results kept from earlier searches stay valid while values are assigned through any of them in any order, and each shows the value last assigned to its entry. Searches, insertions and erasures after an assignment are as right as they were before it.", "quantifier": "all trees, all searches, all results, all values, all sequences of assignments through kept results", "why_tests_cant": "depends on every tree shape and every interleaving of assignments and searches; a test checks one value", "anchors": ["include/mdds/rtree.hpp: const_iterator, iterator, search_results", "include/mdds/rtree_def.inl: search"]}
{"id": "C79", "title": "multi_type_matrix: matrices are values under copy, move, assignment and swap", "statement": "In a program with any number of matrices, copy construction, copy assignment (also to itself), move construction, move assignment (also to itself), swap and copy(src) hand over whole tables, and a step on one matrix changes no other; a copy compares equal to its source; an exception leaves every other matrix as it was. A matrix whose contents were moved out is a consistent matrix and can be given new contents by assignment, swap, resize or clear.", "quantifier": "all programs over any number of matrices, all sizes and elements, all calls with any arguments, exceptions included", "why_tests_cant": "depends on interleavings of copies, moves and later changes; a test checks one interleaving and rarely looks at the moved-from object", "anchors": ["include/mdds/multi_type_matrix.hpp: multi_type_matrix(const multi_type_matrix&), multi_type_matrix(multi_type_matrix&&), operator=", "include/mdds/multi_type_matrix_def.inl: swap, copy", "include/mdds/multi_type_vector/soa/main_def.inl: operator=, swap"]}
