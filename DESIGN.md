# Formal model of mdds in Lean 4: design

`/repo` (kohei-us/mdds, a C++ header library) is read as text.  The model lives
in `lean/Verif/`, one directory per container; the property theorems are kept in
files named `Props.lean` apart from the helper lemmas.  `properties.jsonl` lists
the English properties, `MANIFEST.json` maps them to theorem names,
`seeded/LOG.jsonl` records mutation tests of the theorems.

## Trusted base

* Lean 4.33.0's kernel; the axioms `propext`, `Classical.choice`, `Quot.sound`
  (nothing else: no `sorry`, no own axioms, no `native_decide`/`bv_decide`).
* The reading of the C++ code recorded in the comment of every definition
  (file and lines).  The theorems are about the model; the tie to the code is
  that reading.  To guard it, expected values of the repository's own unit tests
  are replayed on the model as `example`s (these are tests, labelled as tests).
* Modelling conventions common to all containers:
  - keys, sizes, positions are unbounded `Int`/`Nat`: fixed-width overflow is out
    of scope unless a property is about it;
  - C++ containers (`std::vector`, intrusive linked lists, maps) become lists,
    pointers become indices/structure unless the property is about pointers;
  - memory allocation never fails; user-supplied value types have lawful `==`;
  - undefined behaviour (null dereference, out-of-range index) and thrown
    exceptions are distinct outcomes, never totalised away silently;
  - performance, capacity/`shrink_to_fit`, `noexcept`, tracing and debug output
    are not modelled; concurrency does not exist in the library (except OpenMP
    pragmas and parallel execution policies, which are not modelled).

## Shape of each component

1. `Model.lean` — functions transcribed from the code, with citations.
2. `Spec.lean` — the small independent specification (usually a plain function
   or list, a few lines).
3. `Lemmas*.lean` — helper lemmas.
4. `Props.lean` — property theorems, each next to a non-trivial `example`
   meeting its hypotheses; violations found in the code appear as `..._fails`
   theorems (concrete witness) next to a `..._partial` theorem.

## Plan per property

| id | model | proof |
|----|-------|-------|
| C01 | leaf list of (key,value) of flat_segment_tree; `insert_front/back/insert_to_pos` transcribed on the list with explicit UB outcome | refinement to functions `Int → V`: lookup after insert = pointwise update |
| C02 | same | invariant by induction over an operation list |
| C03 | `operator==` on leaf lists | canonical lists with equal lookup functions are equal |
| C04 | `search`, `search_by_key_impl` | induction on the list |
| C05 | `build_tree` (node.hpp tree_builder) and `search_tree` descent on binary trees | tree invariant (low/high, in-order leaves), descent finds the leaf that linear search finds |
| C06 | `insert(pos,…)` with a list index as hint | reduces to the same core function as C01 |
| C07, C08 | `shift_left`, `shift_right` on the leaf list | lookup characterisation, canonicity (violated by shift_left at max: witness + partial) |
| C09 | iterators as list traversal | partition theorem |
| C10 | copy/swap/clear | direct on the model |
| C11–C14 | segment_tree: segment store, sorted distinct boundaries, balanced tree, marked nodes, search descent, erase | stabbing theorem by induction on the tree; equality: witness of violation + partial |
| C15, C16 | binary search on a sorted array, key finders | loop invariant of lower_bound |
| C17–C20 | trie nodes with sorted children, stack iterator | refinement to finite maps; violations (stale stack, begin skips the root, decrement) as witnesses + partial |
| C21, C22 | packed array layout, search in it, byte stream | representation invariant "offset o encodes node n", parser/printer round trip |
| C23–C32, C56 | SoA multi_type_vector: list of blocks (position, size, optional typed array); every mutator transcribed case by case | refinement to `List (Option Elem)`, canonicity invariant |
| C33, C34 | two containers | refinement on pairs |
| C35, C36 | element blocks of object identities plus a log of destroyed objects | ownership invariant (multiset of stored + destroyed + released objects); violations as witnesses |
| C37 | block identities and an event log | balance invariant; violation witness |
| C38 | heap of blocks, shared stores with reference counts, any number of containers | invariant over histories of instance operations |
| C39 | unrolled loops as iterated updates | equality of kernels |
| C40 | (vector, offset) pair | refinement to lists |
| C41–C44 | matrix over the abstract sequence of C23–C34 | index arithmetic |
| C45 | collection iterator state machine | traversal list theorem |
| C46–C49 | quad tree as an inductive tree; heap model for remove | induction on the tree; remove violated: witness + partial |
| C50–C55 | R-tree as an inductive tree with the code's choice functions | containment invariant, content multiset |
| C60, C61 | copy traversal of the packed map; result objects of prefix searches | the copy has an encoding of the same trie (layout invariant); witnesses |
| C64 | `check_integrity` of rtree over arbitrary node trees | equivalence with a specification by mutual induction; searches exact from covering boxes alone |
| C78 | assignment through an iterator of an rtree search result, at a path in the tree | induction on the path: everything but one value is unchanged; searches before and after differ by that value; a step of `Reach`, so C50-C54 cover it |
| C79 | several multi_type_matrix objects as values with a moved-from state | refinement of tables as values (`ObjectsSpec.lean`) for all programs; single calls are those of C41-C43; witness for moved-from matrices |
| C63 | `load_state` with the stream's end and stale buffer bytes | case analysis on the place of the cut, inductions over values and cells; agreement with the model of C22; witnesses |
| C65 | nodes of point_quad_tree in a heap, all pointers owning, `remove` in full | invariant: the heap is the disjoint union of the containers' trees with exact counts; leaks as concrete runs |
| C67, C68 | search results and node access of point_quad_tree as plain pointers into the heap of C65 | the nodes found keep their points while nothing is removed (invariant of C65); induction over the two loops; witnesses |
| C62 | leaf nodes of flat_segment_tree in a heap, owning pointers with reference counts | forward simulation: every function of the heap model refines the list model; invariant on links, counts, ownership |
| C69, C70 | segment_tree with leaves in the heap of C62, pools of tree nodes, plain pointers between them, and search results | forward simulation of a table of trees as values (`HeapSpec.lean`); invariant: each pool holds exactly the tree; witnesses |
| C71 | flat_segment_tree: leaves in the heap of C62, pools of tree nodes, plain pointers between them, kept iterators | forward simulation of lists with a note which trees may be used (`TreeHeapSpec.lean`); each usable pool holds exactly the tree of the leaves; witnesses |
| C72 | trie_map: iterators as stacks of node pointers and child positions into the current tree; references to removed elements are dead | an iterator that may be moved is determined by its key (`canonIt`), hence equal to the one `find` would return now; simulation of the iterators of C19/C20; refinement of cursors in a sorted list (`KeptSpec.lean`); witnesses |
| C76 | several trie_map objects; trees with an identity that moves and swaps hand over; search results and node handles as pointers to the root object or to a node of a tree, dead once removed | refinement of lists of entries with handles (`ObjectsSpec.lean`) for all programs; objects never share contents; witnesses |
| C77 | several packed_trie_map objects; cell buffers with an identity that moves and swaps hand over; handles and results as a pointer into a buffer plus a pointer to the value store of an object | refinement of lists of entries with handles (`Packed/ObjectsSpec.lean`) for all programs; general and concrete witnesses |
| C73 | element blocks as objects of registered classes with a store of values or owning pointers, managed objects in a heap | refinement of lists with a finite map of objects (`Elem/Spec.lean`), one call at a time; exceptions by exact state; witnesses |
| C74 | iterator objects with a copied node, container address and positions in stores that swaps and moves pass on | refinement of iterators as block indices, for all programs; walks by induction; truth of kept iterators as an invariant; witnesses |
| C75 | the traversal loop of C45 with a state of the containers per round | loop invariant of C45, one state per round; a stale hint never matters |
| C66 | the two shifts of flat_segment_tree with every addition and subtraction done in a fixed-width key type | equality with the unbounded model; exact condition for each shift, histories by induction, overflow witnesses |
| C57 | AoS multi_type_vector calls and reads | agreement with the SoA model for every history, refinement of the same specification |

Details, deviations and findings are appended below per component as the model
grows.

## flat_segment_tree (`lean/Verif/FST`, C01-C10, C62, C66, C71)

Modelled: constructor, copy, assignment, swap, move, clear, `insert_front`,
`insert_back`, `insert(pos, ...)`, `insert_to_pos`, `shift_left`,
`shift_right`, `append_new_segment`, `build_tree` (node.hpp `tree_builder`),
`search` (3 overloads), `search_tree`, forward/reverse/segment iterators,
`operator==`.  The doubly linked leaf list is a Lean list of `(key, value)`;
pointers into it are indices.  `Reachable` ranges over all operation histories.
The reference-counted leaf nodes have a model of their own (Memory, below).
The nodes of the search tree and iterators as memory: `TreeHeap.lean` (C71).
Not modelled: dumps.

Findings (each a theorem):
* F1 `C01_insert_fails`: `insert_front(s, min, v)` with `s < min` passes the range
  check and dereferences a null pointer.
* F2 `C02_maximal_fails`, `C03_equality_fails`: `shift_left(s, max)` leaves two
  adjacent segments with the default value when the segment before `s` has it; the
  exact condition is `C02_shiftLeft_maximal_iff`.  Two containers representing
  the same function then compare unequal.
* F3 `C04_search_iterator_fails`: `search(pos, key)` (iterator overload) has no
  fallback for keys before `pos` although the five-argument overload has.

### Memory (`HeapModel.lean` to `HeapProps.lean`, C62)

`HeapModel.lean` writes the functions of flat_segment_tree that touch nodes a second time, statement by statement, on
a heap of nodes with `prev` and `next` pointers and a reference count. Assigning to an owning pointer takes the new
reference before it releases the old one; the release that takes a count to zero deletes the node and releases its
two links. Using a null pointer or a deleted node is `ub`.

Proof: a small program logic (`wp_...` lemmas). The picture `Pic` is what pointers, keys and values are; `Sat` says that
the heap shows it and that each reference count is the number of places pointing to the node; `St` adds that one
container is a doubly linked chain. Each function maps the picture of a list to the picture of the list that `Model.lean`
computes. `HeapWorld.lean` puts any number of containers side by side, `HeapStep.lean` does one call, and
`HeapProps.lean` states the result in terms of walking the links.

### Trees and iterators in memory (`TreeHeap.lean` to `TreeHeapProps.lean`, C71)

The same programs with everything else a container has: the pool of tree nodes (the tree builder of segment_tree's memory
model, which the two containers share in node.hpp too), the root pointer, the flag whether the tree may be used, and
iterators kept by the program (container, leaf node, end flag). `build_tree`, `search_tree`, the linear searches with and
without a position, `begin`, `++` and `*` run on pointers. `TreeHeapSpec.lean` is a table of leaf lists, usable trees and iterator
places; it says which calls are allowed. Elements of a pool have addresses of their own that are never used again.

Findings: a position made by a container that has since been swapped is accepted by its parent check and reports a segment
of the other container (`C71_stale_position_fails`); advancing such an iterator reaches a null pointer
(`C71_advance_after_swap_fails`).

Left out: tree nodes and the `parent` pointers (raw, not owning) and with them `build_tree` and `search_tree`; addresses
are not reused; iterators kept by the program while the container changes; failing allocation.

### Fixed-width keys (`Width.lean` to `WidthProps.lean`, C66)

Keys are added and subtracted only while shifting. `Width.lean` models `shift_left`, `shift_right` and their helpers again
over a built-in integer type (`KeyType`: range, wrap-around or undefined on overflow, promotion to `int`).
* `C66_shiftLeft_partial`: exact if and only if the type wraps around or the removed length is a key; undefined otherwise.
* `C66_shiftRight_partial`: exact if and only if the first border pushed past the end has a representable new position, because
  `shift_leaf_key_right` adds first and compares afterwards.
* `C66_history_partial`: all histories whose right shifts are by at most `max(K) + 1 - hi` end in the state of the unbounded model.
* F4 `C66_unsigned_fails`, `C66_order_fails`, `C66_signed_fails`, `C66_length_fails`: with unsigned keys a segment pushed
  past the end reappears near the start, possibly out of order; with signed keys the call is undefined.

Left out: floating point keys.

## segment_tree (`lean/Verif/SegTree`, C11-C14, C69, C70)

Modelled: constructor, copy, move, `insert`, `build_tree` (with the node.hpp
builder, `descend_tree_and_mark`), `search`, `erase`, `erase_if`, `clear`,
`size`, `empty`, `leaf_size`, `boundary_keys`, `operator==`, the result iterator
(both directions).  Nodes are addressed by their path from the root instead of by
pointer; data chains are lists of store indices as in the code.  The proof of
C11 shows that every point inside the key range is covered by exactly one marked
node per containing segment (`markAll_cnt`), and that every mark is recorded in
the tag map (`TInv`), so that erasure removes all of them.
Not modelled: `to_string`, `check_integrity`, the visitor overload of `search`
(same descent), memory management of nodes.

Findings (each a theorem):
* S1 `C14_eq_multiset_fails`: `operator==` does not remove matched segments:
  `{A,A} == {A,B}` but not `{A,B} == {A,A}`.
* S2 `C14_eq_ignores_validity_fails`, `C14_copy_eq_fails`: the validity flag is
  compared; a copy of a valid tree whose segments are all erased differs from it.
* S3 `C13_leaf_size_empty_fails`: `leaf_size()` of an empty container is 1.
* S5 `C13_moved_from_fails`: the defaulted move leaves the source with a valid
  flag and a root pointer into nodes it no longer owns.

### Memory (`Heap.lean` to `HeapProps.lean`, C69, C70)

A second model of the same calls with leaves in the heap of flat_segment_tree (the same templates), tree nodes in pools
that are sized by `count_needed_nonleaf_nodes` and filled by `tree_builder`, plain pointers from tree nodes to children,
from the container to the root and to marked nodes, and search results that hold pointers to chains and to the store.
Following a null or dangling pointer and overrunning a pool are a distinct outcome. `HeapSpec.lean` is a table of trees as values
(`Model.lean`) and of valid search results; it says which calls are allowed. Every allowed program is defined, returns what
the table says, and leaves memory as `Intact` describes (`C69_memory_refines`), with nothing left at the end (`C69_no_leak`).
`check_integrity` is modelled only as far as it follows `m_tagged_nodes_map`; dump functions are not modelled.

Findings: the defaulted move constructor leaves root pointer and valid flag in the source, so searching the source
follows a dangling pointer (`C69_moved_from_fails`); `build_tree` on an emptied tree keeps stale tags, which
`check_integrity` follows (`C69_check_fails`); a search result dangles after `erase` through it (`C70_erase_fails`) and shows
the segments of the other container after `swap` (`C70_swap_fails`).

## sorted_string_map (`lean/Verif/SSMap`, C15-C16)

Modelled: `find` with the halving loop of `std::lower_bound`, both key finders
(`std::unordered_map` as an association list).  The specification is
`List.find?` on the table.  Trusted: that the standard library's
`lower_bound` probes like the modelled loop (any correct implementation gives
the same result on a sorted table).

## trie_map (`lean/Verif/Trie`, C17-C20, C72, C76)

Modelled: nodes with sorted children (`std::map` as a sorted sibling list), insert, erase with pruning, find
with its node stack, prefix_search, `begin`/`end`, `++`, `--`, size, empty, clear, `==`.  An iterator is the
stack of (node, child position) pairs plus the key buffer.  Not modelled here: copies and moves of whole maps,
`const_node_type`, kept search results (`Objects.lean`, below).  Key units are natural numbers compared by `<`.

Specification: `denote t : Key → Option V`, `specRun` over histories.  Invariant: children sorted, no dead ends.

Findings (each with a `_fails` theorem):
- `find_prefix_node_with_stack` returns early with a partial stack; `find`/`erase` take its top for the found
  node.  {"a","abd"}: `find("abx")` gives "a"; `erase("abx")` erases "a".
- `begin()` skips the entry of the empty key; `--end()` returns that entry instead of the last one.
- `prefix_search("")` on an empty map: `begin()` reads `children.begin()` of a node without children.
- `operator--` from an inner node ignores left siblings below the root: wrong entry or decrement of `begin()`.

### Kept iterators (`Kept.lean` to `KeptProps.lean`, C72)

Here an iterator holds references, not nodes: a node is named by its path, a child position by its unit, and a
reference is dead from the moment its `std::map` element is removed.  The specification keeps the map as a sorted list
and an iterator as a cursor at a key with the flag `fresh`: no call has changed which unit comes first below its key.
Programs also assign values through iterators (`it->second = v`): the entry of that key gets the value, no iterator moves.
Trusted: elements of `std::map` stay in place, `end()` of a map stays valid.  Not modelled: move and `swap` of maps with
iterators outstanding (search results and node handles: C76).

Findings: the item of the current node stores `children.begin()` at the time the iterator got there; `++` takes the
current `children.begin()` but does not store it.  After a change of the first unit below the key the walk back up
skips keys (`C72_skip_fails`), moves an end position forward (`C72_past_end_fails`) or uses the position of a removed
child (`C72_erased_child_fails`); `==` also compares this stored position (`C72_compare_fails`).

### Maps as objects, kept search results and node handles (`Objects.lean` to `ObjectsProps.lean`, C76)

Programs with any number of maps: construction, copy, move, assignment (by copy and by move), swap, destruction, `insert`, `erase`,
`clear`, `size`, `==`, `prefix_search`, `root_node`, `child` and the questions of `const_node_type`, loops over kept results.  A tree has an
identity that moves and swaps pass on (trusted: `std::map` hands its elements over without moving them); the root belongs to the
object.  The specification has lists of entries and handles: a handle for a non-empty prefix belongs to the contents, a handle for the
empty prefix to the object.  A loop over a result is one call.

Findings: the move constructor leaves `has_value` of the source's root set, so a map with the empty key still has it after it
was moved from (`C76_moved_from_fails`); a result whose last entry was erased dangles, also if the key is stored again
(`C76_dangling_fails`); an empty result stays empty (`C76_empty_result_fails`); after `swap` results for the empty prefix show the other
contents, all other results follow theirs (`C76_swap_follows`).

## packed_trie_map (`lean/Verif/Packed`, C21, C22, C58, C60, C61, C63, C77)

Modelled: `pack` (`compact`, `compact_node`), the constructor from a sorted table (`traverse_range`), lookup with the
binary search over child slots, prefix search, iterators in both directions on the cell buffer, `==`, node walk,
`save_state`/`load_state` with the three serializers of the library.  The buffer is a list of numbers, each reduced
modulo the number of values of the cell type; pointers are indices, reads outside are undefined behaviour.
Proof: an encoding relation (`Enc`) between cells and trie nodes; each packed iterator step simulates the step
of the trie iterator model (`Rel`).  Streams are byte lists; reading past the end is undefined behaviour.
`Cut.lean` refines this for streams that end early: the buffer the numbers are read into keeps its old bytes
(unwritten bytes are undefined behaviour when used), and the loops of the value serializers do not end.
The copy constructor (a traversal that rebuilds values and cells) is modelled with assignment and move (`Copy.lean`);
every theorem about packed maps is stated for the maps made by `pack` and all copies of copies of them.  The object
returned by `prefix_search` is modelled with its copy, move and assignment (`Results.lean`).
`Objects.lean` has programs over several packed maps with node handles and results kept across copies, moves, swaps,
assignments and destruction (C77).  Moves and swaps hand over the buffer, into which a handle points, but not the
value store member, to which it also points.
Not modelled: `dump_structure`, byte order of the machine
(little endian assumed), the `assert`s.

Findings (each with a `_fails` theorem):
- `begin()` skips the entry of the empty key.
- When the buffer is longer than the cell type can express, offsets are cut silently (only the number of values is
  checked; the check accepts one value less than its message says).
- The entries constructor uses the key unit 0 as "no range yet": keys with unit 0 get lost.
- `==` ignores the empty key's value and may read a value that does not exist.
- a rejected `load_state` has already replaced the stored values.
- `load_state` does not notice the end of the stream: it may loop for ever, read outside, or accept a broken map.
- Copying a default-constructed or moved-from packed map reads a value that does not exist.
- Copying or moving the result of a search loses the pointer to the values (iterating it is undefined); assigning it to
  a variable that holds a result of another map shows the values of the other map.
- After a move of the map, reading a value through a kept node handle or result is undefined; after `swap` it shows the
  values of the other map, even if that map is a copy of the first (`C77_move_fails`, `C77_swap_fails`, `C77_swap_copy_fails`).
- The root node of an empty (default-constructed or moved-from) packed map claims to have a value (`C77_default_fails`).

## Position adjustment kernels (`lean/Verif/Mtv/Kernels.lean`, C39)

All 12 `adjust_block_positions` variants (plain, unrolled 4/8/16/32, SSE2, AVX2) of
`soa/block_util.hpp`, and the five of `aos/block_util.hpp`, with their literal offsets,
masks, loop steps and remainder loops. Positions are 64-bit words. SIMD add is a
lane-wise add of adjacent words. OpenMP loops are modelled as sequential loops.

## delayed_delete_vector (`lean/Verif/Ddv`, C40)

The underlying vector is a list and iterators are indices into it. Modelled: all
constructors, accessors, mutators, `==`. Not modelled: capacity.

Findings: `swap()` does not exchange `m_front_offset` (`swap_fails`); the implicit
move leaves the offset in the moved-from object, whose `size()` then wraps
(`moved_from_size_fails`).

## multi_type_vector, structure of arrays (`lean/Verif/Mtv`, C23-C39, C56, C74)

Modelled: block store (positions, sizes, typed element blocks with the ids of the objects they own), all single
container calls of `soa/main_def.inl`: set, set_empty, insert, insert_empty, erase, push_back(_empty), resize, clear,
release(_range), position/get/is_empty/get_type, iterators as block walks, position hints, advance/next/prev, `==`,
constructors and destructor, and the event callbacks. Ownership is a ledger: which objects were handed to the
container, which it destroyed, which it released.
Specification: a list of optional values (`Spec.lean`); each call is a list operation, `Eff` states the effect on
cells, ledger and events.
`Transfer.lean` models `transfer` of all variants (`transfer_single_block`, `transfer_multi_blocks`) as functions on
two states; `PairSpec.lean` specifies histories over two containers (calls on either, transfers both ways) on a pair
of lists; `PairProps.lean` has C33 and the two-container parts of C30, C32, C36, C37, C56. Element block numbers are
drawn per container, so per-block event counts of C37 count equally numbered blocks of the two containers together.
`Swap.lean` models range `swap` (single block, single to multi, multi to multi, `exchange_elements`,
`prepare_blocks_to_transfer`, `insert_blocks_at`) and whole-container `swap`; both are calls of the pair histories;
`SwapProps.lean` has C34.
`Cow.lean` puts any number of containers over a heap of element blocks, with shared holders and their reference counts
(C38): constructors, copy, clone, move, assignment, `swap`, destruction, `share`, `detach_impl`, and every modifying
call. A call on a container that owns its blocks is the single-container call on the blocks read from the heap.
`CowSpec.lean` specifies each container as a value of its own. Outside the model: an argument that refers to an element
of the container itself (with copy-on-write such a reference dangles once `detach_impl` has deleted the old blocks).
The array-of-structures variant has its own model, see below.

Findings (each with a `_fails` theorem):
- M4: shrinking `resize` into a managed block that does not begin at position 0 overruns the block (`C28_resize_fails`).
- M7: two neighbouring blocks of one type can stay unmerged (`C30_canonical_fails`); then containers with the same
  values compare different (`C31_equal_fails`).
- M8: with copy-on-write, `clone` of a container with blocks that cannot be cloned succeeds and makes the source
  refuse every later modification (`C38_clone_fails`).
- M6: a container that was moved from keeps its size although it has no cells (`C38_moved_size_fails`).
- M5: a default position hint on an empty container is dereferenced (`C32_hint_empty_fails`).
- M2: a range `set` across two managed blocks overwrites an object without destroying it (`C36_leak_fails`).
- M3: a range `swap` that replaces a whole block between two blocks of the incoming type destroys the objects of
  the following block while they stay stored (`C36_swap_fails`).
- M1: inserting before a block of another type reports the wrong block to the event handler (`C37_insert_fails`);
  a range `set` into the front of a block replaces the block object without an event (`C37_set_fails`).

### Iterator objects (`Iter.lean` to `IterProps.lean`, C74)

`Iter.lean` follows `soa/iterator.hpp` and `iterator_node.hpp`: an iterator is a copy of its block's description, the
address of its container, the block index (forward iterators), and one position in each of the three parallel arrays
with the three end positions. The arrays of a container are a store with an identity: `swap` and moves pass stores on, a
call that may move the contents gives the container a new store, so a position in the old one dangles, and using it is
undefined. `IterSpec.lean`: an iterator is an index into the blocks of a store, and calls are made without hints.
Proof: a representation relation kept by every legal step (`IterOk.lean`), then the properties on the specification.

Findings: after `swap`, kept iterators still work on the blocks but compare unequal to new ones at the same block
(`C74_swap_fails`); after `push_back` into the last block a kept iterator shows the old size (`C74_push_back_fails`).

`Verif/Aos/Iter.lean` is the same for `aos/iterator.hpp`, with one position in the array of blocks; `Aos/IterProps.lean`
shows step by step that both layouts answer every program alike (`C74_layouts`), so the programs theorem holds there too.

`transfer` and the range `swap` between two different containers are steps of the programs: both containers get new stores,
and the iterator `transfer` returns shows the empty block that holds the whole range (`C74_transfer`).

Not modelled: the copy-on-write layout's iterators; `transfer` of a container to itself in these programs (`C33_self`).

## multi_type_vector, array of structures (`lean/Verif/Aos`, C57)

Modelled: the calls and reads of `aos/main_def.inl` that C23-C37 cover for the other implementation, function by
function, with the lines of the `aos` file. The two files are near copies of each other. The text of a definition was
taken over from the SoA model where reading both sources showed the same logic, and rewritten where they differ
(`get_block_position` walking records, `insert_cells_impl`, `operator==`, `transfer` without the self check, the merge
helpers on block records, constructors). State: the same block list, size, ledger, event log and block counter.
Copy, clone, move, assignment, exchange and destruction of any number of containers over a heap of blocks are in
`Many.lean` (world and specification of the copy-on-write model, here without sharing). Not modelled: `dump_structure`.

`Same.lean` proves function by function that the AoS definition equals the SoA definition, where it does. `insert` is the
exception. `Blind.lean` proves that no SoA or AoS function reads the event log (each maps states that differ only in the
blocks named by events to such states), and so that two histories agree in everything else. `Exact.lean` proves full
equality for histories without the misreporting `insert`. `Events.lean` repeats the effect of `insert` for AoS and gets
the ledger and event balance of C36 and C37 for this implementation. `Spec.lean`: histories with reads, exceptions caught,
every answer recorded. `ManyProps.lean`: worlds of both implementations stay alike step by step, so the theorems of C38
carry over.

Findings:
- A1: SoA's `insert` before a block of another type reports the old block (M1), AoS reports the new one
  (`C57_events_fails`).
- A2: AoS' `transfer` with a hint does not check that the destination is another container. A container that transfers an
  element onto itself loses the element without an exception (`C57_self_transfer_fails`).
- A3: the AoS copy constructor has no rollback when copying a block throws: the blocks copied before are lost
  (`C36_aos_copy_leak_fails`; `C36_aos_copy_lost` says exactly which values, for every history).
- M2, M3 and M7 are in this implementation too (`C36_aos_leak_fails`; the others by `Same.lean`).

## Element blocks of multi_type_vector (`lean/Verif/Elem`, C73)

The models above take an element block to be a list.  Here a block is an object of one of the registered classes
(plain, managed, noncopyable with or without `clone_value`) over `std::vector` or `delayed_delete_vector`; managed
objects live in a heap; the dispatcher finds the class by the block's type.  Modelled: all of `element_block_funcs`, the
static functions of the classes, copy construction, cloning, destructors.  Trusted: `std::vector`, and that a
constructor which throws does not run the destructor of its own class.  Not modelled: `print_block`, execution
policies, allocation failure, capacities (an arbitrary function).

Findings: copying a managed block leaks the copies made so far when an element's copy constructor throws
(`C73_copy_leak_fails`), while cloning a noncopyable block does not; a copy of a managed block does not equal its source
(`C73_copy_equal_fails`), while noncopyable blocks compare values; copying a `delayed_delete_vector` block copies
erased elements as well (`C73_copy_hidden_fails`); copying a managed block with null pointers follows them
(`C73_copy_null_fails`); `delayed_delete_vector::at` wraps (`C73_at_wrap_fails`).

## point_quad_tree (`lean/Verif/Quad`, C46-C49, C65)

Modelled: insert, find, region search, size, empty, clear, stored data, copy, assignment, `==`, and remove with
its replacement search, quadrant adjustment and reinsertion. Keys are integers. The reference-counted node graph is
an inductive tree; of each parent pointer the model keeps whether it leads back to the node, which is all the code
asks. After an exception the model does not describe the tree. Not modelled: SVG dump. `Tests.lean` replays the removal scenarios of the repository's tests.

Specification: a finite map from points to data. Invariant `WF`: each subtree only holds points of its quadrant;
kept by every call that returns, including the faulty removals.

Findings: remove loses points when the replacement node is deeper than a child (`C48_remove_fails`; exact condition
in `C48_remove_exact_iff`); remove leaves wrong parent pointers, so a later remove throws (`C48_throw_fails`);
self-assignment empties the tree (`C49_assign_fails`).

### Memory (`Heap.lean` to `HeapProps2.lean`, C65)

A second model of the same calls with nodes in a heap: all five pointers of a node, the root pointers and the local
pointers own their target, a node is deleted when its count reaches zero and then releases its own pointers; following
a deleted or null pointer is a distinct outcome. Locals that only walk down are not counted. Programs have any number of
containers. For every program, up to its first exception: no deleted or null pointer is followed, containers share no
node, every count equals the number of pointers to the node, and the tree found by following the pointers is that of
`Model.lean`, including which parent pointers are right (`C65_safe`, `C65_refines`, `C65_separate`, `C65_counts`,
`C65_find`). The invariant allows wrong parent pointers and lost nodes. For programs whose removals meet an absent
point or a leaf, nothing leaks (`C65_owned_partial`, `C65_no_leak_partial`). What the locals release while an exception
unwinds is not modelled.

Findings: removing a node whose replacement is its own child makes the node its own parent, so it keeps itself alive;
when it is removed as the last node it leaks (`C65_leak_fails`). The subtree lost by a removal with a deeper replacement
leaks even through `clear` (`C65_leak_subtree_fails`).

`Results.lean` adds the objects that hold plain pointers: `search_results` with its iterator and `node_access` (C67, C68).
Findings: `--` on `end()` shows a default value instead of the last point (`C67_end_fails`, for every non-empty result
`C67_end_exact`); after a removal a kept result may dangle, even if none of its points was removed (`C67_moved_fails`).

## rtree (`lean/Verif/RTree`, C50-C55, C64, C78)

Modelled: the geometry helpers, insertion (leaf and overlap choice, forced reinsertion, splitting up to the root,
extent propagation), the four searches, erasure (dissolution cascade, reinsertion of directories and values, root
collapse), copy, move, swap, clear, extent, size, walk, check_integrity, and the bulk loader. Any number of
dimensions. Keys are integers for comparisons; sums, differences, products and halves of keys are computed by four
arbitrary functions (`Cfg.ar`), so the theorems cover unsigned keys that wrap around and floating-point keys without
NaN; signed overflow, which is undefined, is outside the model. A heap node is an inductive
value that also records where its stored parent pointer leads (its real parent, the root's address, or nowhere
valid); following a pointer that leads nowhere is a distinct outcome. `std::sort` is any function that permutes its
input. The bulk loader's floating-point segment counts are exact natural numbers. Iterators are child positions from
the root; assigning through one (`Write.lean`) replaces the value at that path, and is one of the steps of the
histories (`Reach`). Not modelled: export_tree, the error text of check_integrity.

Specification (`Spec.lean`): points in boxes, overlap as a shared point, bounding boxes by coverage and touched
faces, and the shape invariant `WFR` (counts, occupancy, equal height, right parent pointers). `Reach` is the set of
histories. Insertions are covered while the root's pointers are not marked valid or the root has room (`roomy`):
every insertion-only history is covered. Erasures are covered when at most one level of directories is dissolved
(`mild`). Outside these sets `Entries.lean` asks nothing of the tree: a call that returns adds exactly the new entry,
or removes exactly the designated one, or (erase through a pointer to the root's address) removes none.

Findings (each with a `_fails` theorem):
- R1: splitting a root whose pointers are marked valid (after bulk load, copy, move or swap) leaves wrong parent
  pointers: a stored entry is not found (`C50_search_fails`), erase removes nothing (`C52_erase_fails`), a directory
  does not cover its contents (`C53_boxes_fails`).
- R2: the dissolution loop leaves dangling parent pointers (`C52_erase_dangling_fails`).
- R10: extents of ancestors are not shrunk after dissolution (`C53_extent_after_erase_fails`).
- R3, R4: reinserted directories can overfill a directory and land on the wrong level
  (`C54_capacity_after_erase_fails`, `C54_depth_after_erase_fails`).
- R11: the bulk loader does not terminate for some small capacities (`C55_bulk_terminates_fails`).
- R12: check_integrity rejects a freshly split root when the minimum is above two (`C54_check_integrity_fails`).

## multi_type_matrix (`lean/Verif/Mtm`, C41-C44, C59, C79)

Modelled: construction, element and range setters and getters (row/column and position forms), column and row
operations, transpose, both `copy` overloads, both `resize` overloads, clear, numeric, empty, `==`, and the four
`walk` variants. The value store is the model of multi_type_vector; the matrix code is modelled line by line on top
of it. The four element types are kept; numbers and strings are arbitrary types and the number conversions are
parameters. `Objects.lean` adds programs with several matrices: copy and move construction, both assignments, swap,
`copy(src)` between them and onto itself, destruction. There each matrix owns its store; that stores do not share
element blocks in memory is C38. Not modelled: `int8_t` elements, exceptions from copying element values.

Specification (`Spec.lean`): a table of elements. `Shows m t` relates a matrix to its table; each call is an
operation on tables. `Reach` covers every history with any arguments, with exceptions caught. Walk results are
compared with the list of elements of the region; each node must hold elements of one type.

Findings (each with a theorem):
- X1: transpose throws on integer elements (`C42_integer_throws`).
- X2: copy and resize throw on integer elements; copy has then overwritten part of the destination
  (`C43_copy_fails`, `C43_resize_fails`).
- X3: the sub-range walks accept an end one row or column behind the matrix (`C44_bound_fails`).
- X4: a row index behind the last row is not refused and reaches the next column (`C41_row_bound_fails`). The
  repository's own test does this.
- X6: a moved-from matrix reports its old size although it is empty; reading an element throws (`C79_move_fails`).
- X5: equal tables can compare unequal after a range `set` (`C59_equal_fails`, from M7).

`Tests.lean` replays `test/multi_type_matrix/test_main.cpp` and `test_walk.cpp`.

## Collections (C45, C75)

`Verif/Coll`: `Model.lean` follows `multi_type_vector/collection.hpp` and `collection_def.inl` function by function.
A collection holds addresses; a function from addresses to container states (the SoA model of C23-C32) says what is
there, so a container may change between construction and iteration. `size_t` sums wrap around at 2^64.
Each item of an iterator keeps its own block hint, as in the code; the hint is passed to the modelled `position`.

`Spec.lean`: a collection is a list of containers, a length and two ranges; iteration is the list of
(container index, position, cell), rows first.

Proof: a loop invariant "the iterator stands on container k of position p, and its node reads the cell there", induction
on the rounds left; the state between calls is related to the specification by induction over histories of two
collections (construct, set either range, swap).

`Change.lean` (C75) runs the same functions with the containers changing in every round of the loop.

Not modelled: `side_iterator`'s default constructor; exception texts.

Findings:
- M9: constructing a collection from an empty range reads the first pointer of an empty vector (`C45_empty_fails`).
- M10: the range checks add start and size before comparing; with a sum past 2^64 the range is accepted and iteration is
  undefined (`C45_overflow_fails`).
