{"id": "C01", "title": "push_back appends one element", "statement": "After v.push_back(x) the vector holds exactly the old sequence followed by x: len grows by one, every old index still reads the old element, and get(old_len) reads x. The call does not panic unless the new length would not fit in usize.", "quantifier": "every vector reachable through the public API (any shape the tree can have) and every element", "why_tests_cant": "a push takes a different path depending on which leaf, spine node or root is full; the set of shapes is unbounded", "anchors": ["src/vector.rs InternalVector::push_back", "src/vector.rs InternalVector::push_side", "src/vector.rs InternalVector::complete_leaf"]}
{"id": "C02", "title": "push_front prepends one element", "statement": "After v.push_front(x) the vector holds x followed by exactly the old sequence; no panic unless the new length would not fit in usize.", "quantifier": "every reachable vector and every element", "why_tests_cant": "same unbounded set of tree shapes as push_back, on the mirrored spine", "anchors": ["src/vector.rs InternalVector::push_front", "src/vector.rs InternalVector::push_side"]}
{"id": "C03", "title": "pop_back removes the last element", "statement": "v.pop_back() returns None and leaves v empty when v is empty; otherwise it returns the last element and leaves exactly the preceding elements. It never panics.", "quantifier": "every reachable vector", "why_tests_cant": "popping the last item of a leaf pulls nodes down from arbitrary heights and may collapse the tree", "anchors": ["src/vector.rs InternalVector::pop_back", "src/vector.rs InternalVector::pop_side", "src/vector.rs InternalVector::empty_leaf", "src/vector.rs InternalVector::fixup_spine_tops"]}
{"id": "C04", "title": "pop_front removes the first element", "statement": "v.pop_front() returns None on an empty vector; otherwise it returns the first element and leaves exactly the following elements. It never panics.", "quantifier": "every reachable vector", "why_tests_cant": "mirrored form of pop_back; shapes are unbounded", "anchors": ["src/vector.rs InternalVector::pop_front", "src/vector.rs InternalVector::pop_side", "src/vector.rs InternalVector::empty_leaf"]}
{"id": "C05", "title": "len and is_empty tell the truth", "statement": "After any history of operations len() equals the number of elements that iteration yields and is_empty() holds exactly when there are none.", "quantifier": "every finite history of API calls", "why_tests_cant": "len is a separately stored counter; a drift needs a particular history to show", "anchors": ["src/vector.rs InternalVector::len", "src/vector.rs InternalVector::is_empty"]}
{"id": "C06", "title": "get reads the sequence", "statement": "v.get(i) is Some(the i-th element) for i < len and None for i >= len; v[i] is the same element and panics exactly when i >= len.", "quantifier": "every reachable vector and every index", "why_tests_cant": "lookup goes through size tables whose contents depend on the whole history", "anchors": ["src/vector.rs InternalVector::get", "src/vector.rs find_node_info_for_index", "src/node_impls/basic.rs Internal::get", "src/size_table.rs SizeTable::position_info_for"]}
{"id": "C07", "title": "get_mut writes exactly one position", "statement": "Writing y through v.get_mut(i) (i < len) makes index i read y and leaves the length and every other index as it was; get_mut(i) is None for i >= len.", "quantifier": "every reachable vector, index and new value", "why_tests_cant": "needs all other indices in all shapes to be unchanged", "anchors": ["src/vector.rs InternalVector::get_mut", "src/vector.rs InternalVector::get_mut_guarded", "src/node_impls/basic.rs Internal::get_mut"]}
{"id": "C08", "title": "front and back", "statement": "front()/back() return the first/last element or None exactly when the vector is empty, and writing through front_mut()/back_mut() replaces just that element.", "quantifier": "every reachable vector", "why_tests_cant": "depends on the leaf spine nodes never being empty in a non-empty vector", "anchors": ["src/vector.rs InternalVector::front", "src/vector.rs InternalVector::back", "src/vector.rs InternalVector::front_mut", "src/vector.rs InternalVector::back_mut"]}
{"id": "C09", "title": "append concatenates", "statement": "After a.append(b), a holds the old a followed by b. No panic unless the sum of lengths does not fit in usize.", "quantifier": "every pair of reachable vectors, of any heights and shapes", "why_tests_cant": "two independent unbounded tree shapes of different heights are zipped together", "anchors": ["src/vector.rs InternalVector::append", "src/node_impls/basic.rs Internal::pack_children", "src/node_impls/basic.rs Internal::share_children_with"]}
{"id": "C10", "title": "prepend concatenates", "statement": "After a.prepend(b), a holds b followed by the old a.", "quantifier": "every pair of reachable vectors", "why_tests_cant": "as append", "anchors": ["src/vector.rs InternalVector::prepend"]}
{"id": "C11", "title": "split_off partitions", "statement": "r = v.split_off(i) leaves v holding the first min(i,len) elements and r holding the rest, in order; both results are full-fledged vectors. It never panics.", "quantifier": "every reachable vector and every index (including past the end)", "why_tests_cant": "the cut walks down arbitrary nodes, drops empty ones and re-fills a spine; shapes and cut points are unbounded", "anchors": ["src/vector.rs InternalVector::split_off", "src/vector.rs InternalVector::fill_spine", "src/node_impls/basic.rs Internal::split_at_position"]}
{"id": "C12", "title": "append undoes split_off", "statement": "Splitting a vector at any index and appending the second part to the first gives back the same sequence.", "quantifier": "every reachable vector and every index", "why_tests_cant": "round trip across two unbounded restructurings", "anchors": ["src/vector.rs InternalVector::split_off", "src/vector.rs InternalVector::append"]}
{"id": "C13", "title": "slice_from_start and slice_to_end", "statement": "v.slice_from_start(n) keeps exactly the first min(n,len) elements; v.slice_to_end(s) keeps exactly the elements from index s on (none if s >= len).", "quantifier": "every reachable vector and every bound", "why_tests_cant": "needs every cut point of every shape", "anchors": ["src/vector.rs InternalVector::slice_from_start", "src/vector.rs InternalVector::slice_to_end"]}
{"id": "C14", "title": "extract_slice cuts out a range", "statement": "r = v.extract_slice(a..b) with a <= b returns the elements at indices a..min(b,len) and leaves v with the elements before a followed by those from b on.", "quantifier": "every reachable vector and every range (included, excluded and unbounded ends)", "why_tests_cant": "three restructurings in a row over unbounded shapes", "anchors": ["src/vector.rs InternalVector::extract_slice", "src/vector.rs arbitrary_range_to_range"]}
{"id": "C15", "title": "insert puts the element at the index", "statement": "v.insert(i,x) yields the first min(i,len) elements, then x, then the rest.", "quantifier": "every reachable vector, index and element", "why_tests_cant": "composition of split, push and append on unbounded shapes", "anchors": ["src/vector.rs InternalVector::insert"]}
{"id": "C16", "title": "remove takes out one element", "statement": "v.remove(i) for i < len returns the element at i and leaves the others in order; for i >= len it returns None and leaves v unchanged. It never panics.", "quantifier": "every reachable vector and index", "why_tests_cant": "composition of splits, pop and append on unbounded shapes", "anchors": ["src/vector.rs InternalVector::remove"]}
{"id": "C17", "title": "any history behaves like a sequence", "statement": "For any finite program over any number of vectors built from new, singleton, clone, push, pop, get_mut writes, append, prepend, split_off, slices, extract_slice, insert, remove, reverse, sort, dual_sort, collecting, iterators of all three kinds, foci and mutable foci (also split ones), comparisons and drop, the observable contents and all return values are those of the same program on plain sequences.", "quantifier": "every finite program", "why_tests_cant": "tests only sample histories; bugs of this kind of structure need a specific history", "anchors": ["src/vector.rs InternalVector"]}
{"id": "C18", "title": "operations keep the vector usable", "statement": "After any finite history the vector is in a state where assert_invariants succeeds: two spines as tall as the root's level, no node wider than 64, spine leaves non-empty, spine internals and the root leave room, size tables match the sizes of the children, no empty nodes inside the tree, an empty root only over balanced spine tops.", "quantifier": "every finite history", "why_tests_cant": "an invariant has to hold in all reachable states", "anchors": ["src/vector.rs InternalVector::assert_invariants", "src/node_impls/basic.rs Internal::debug_check_invariants"]}
{"id": "C19", "title": "no uninitialised read, no lost or duplicated slot", "statement": "No API call on a reachable vector ever reads an uninitialised or moved-out slot of a node buffer, overwrites a live slot without returning it, or indexes out of a buffer.", "quantifier": "every reachable vector and every call", "why_tests_cant": "undefined behaviour may not show up in a test run at all", "anchors": ["src/circular.rs CircularBuffer"]}
{"id": "C20", "title": "node buffer behaves like a bounded deque", "statement": "Two node buffers created empty and used through any sequence of push/pop at both ends, get, writes through get_mut and pair_mut, back, clone, and transfers in both directions behave like sequences of at most 64 items: a push on a full buffer and a pop on an empty one are refused without changing it (try_ forms) or panic (other forms).", "quantifier": "every sequence of operations and every starting offset of the ring", "why_tests_cant": "wrap-around positions combine with every length and operation order", "anchors": ["src/circular.rs CircularBuffer", "src/circular.rs CircularBuffer::decant_into"]}
{"id": "C21", "title": "node buffer clone and drop touch each item once", "statement": "Cloning a node buffer calls clone on each live item exactly once and on nothing else, and gives an equal buffer; dropping it drops each live item exactly once and nothing else, leaving no live slot.", "quantifier": "every reachable buffer state", "why_tests_cant": "leaks and double drops are invisible to value-based tests", "anchors": ["src/circular.rs CircularBuffer::clone", "src/circular.rs CircularBuffer::drop"]}
{"id": "C22", "title": "node buffer iterators are double ended", "statement": "Borrowing and consuming iterators over a node buffer yield every item exactly once for any interleaving of next and next_back: the k-th next yields the k-th item, the k-th next_back the k-th item from the end, and None forever after the two meet.", "quantifier": "every reachable buffer and every interleaving of next/next_back", "why_tests_cant": "number of interleavings is exponential", "anchors": ["src/circular.rs Iter", "src/circular.rs IterMut", "src/circular.rs IntoIter"]}
{"id": "C23", "title": "iter yields the sequence from both ends", "statement": "v.iter() yields every element exactly once under any interleaving of next and next_back, size_hint is always the exact remaining count, and it keeps returning None once exhausted.", "quantifier": "every reachable vector and every interleaving of next/next_back", "why_tests_cant": "iteration keeps a cached path through the tree; staleness depends on the access order", "anchors": ["src/vector.rs Iter", "src/focus.rs Focus"]}
{"id": "C24", "title": "iter_mut visits every element once", "statement": "v.iter_mut() hands out each position exactly once under any interleaving of next and next_back, the handed-out positions are pairwise distinct, and writing f(x) through each gives the mapped sequence.", "quantifier": "every reachable vector and every interleaving", "why_tests_cant": "aliasing of two handed-out references is not observable by tests", "anchors": ["src/vector.rs IterMut", "src/focus.rs FocusMut"]}
{"id": "C25", "title": "into_iter moves every element out once", "statement": "v.into_iter() yields every element exactly once under any interleaving of next and next_back with exact size_hint.", "quantifier": "every reachable vector and every interleaving", "why_tests_cant": "as iter, with restructuring after each step", "anchors": ["src/vector.rs IntoIter"]}
{"id": "C26", "title": "collect round trip", "statement": "Collecting an iterator into a vector and iterating it gives the same items in the same order; collecting v.into_iter() gives an equal vector.", "quantifier": "every finite item sequence", "why_tests_cant": "sequence length is unbounded", "anchors": ["src/vector.rs FromIterator", "src/vector.rs InternalVector::singleton", "src/vector.rs vector! macro"]}
{"id": "C27", "title": "constant_vec_of_length", "statement": "constant_vec_of_length(x,n) holds exactly n copies of x.", "quantifier": "every x and every n that fits in usize", "why_tests_cant": "loop over the bits of n with structure-sharing appends", "anchors": ["src/vector.rs InternalVector::constant_vec_of_length"]}
{"id": "C28", "title": "clone is independent", "statement": "After w = v.clone(), no operation on v changes what w reads, and no operation on w changes what v reads, although they share nodes.", "quantifier": "every reachable sharing pattern and every later history on either copy", "why_tests_cant": "sharing patterns are created by all previous clones, appends and splits", "anchors": ["src/vector.rs InternalVector::clone", "src/node_impls/basic.rs SharedPointerEntry::load_mut"]}
{"id": "C29", "title": "focus reads the sequence whatever was read before", "statement": "v.focus().get(i) is Some(the i-th element) for i < len and None otherwise, no matter which indices were read through the same focus before.", "quantifier": "every reachable vector and every sequence of indices", "why_tests_cant": "the focus caches a path; correctness depends on the whole access history", "anchors": ["src/focus.rs Focus::get", "src/focus.rs Focus::refocus", "src/focus.rs PartialFocus::move_focus"]}
{"id": "C30", "title": "focus narrow", "statement": "focus.narrow(a..b) (a <= b <= len of the focus) gives a focus that reads exactly the elements at a..b of that focus, and a range that ends beyond the focus is refused with a panic; narrowing to an empty range gives a focus that reads nothing.", "quantifier": "every reachable vector, every already narrowed focus and every range", "why_tests_cant": "nested narrowing with all offsets and tree shapes", "anchors": ["src/focus.rs Focus::narrow", "src/focus.rs Focus::narrowed_tree"]}
{"id": "C31", "title": "focus split_at", "statement": "focus.split_at(i) gives two foci that together read exactly what the focus reads: the first reads its first i elements, the second the rest.", "quantifier": "every reachable vector, every already narrowed focus and every i <= len", "why_tests_cant": "needs all nested offsets and tree shapes", "anchors": ["src/focus.rs Focus::split_at"]}
{"id": "C32", "title": "mutable focus reads and writes the sequence whatever was accessed before", "statement": "v.focus_mut().get(i) gives Some(reference to the i-th element) for i < len and None otherwise, after any sequence of earlier get calls (in range or not); it never panics; writing through it changes just that index of v.", "quantifier": "every reachable vector and every sequence of indices", "why_tests_cant": "cached path with lazily refreshed parts; depends on the access history", "anchors": ["src/focus.rs FocusMut::get", "src/focus.rs InnerFocusMut::move_focus", "src/focus.rs InnerFocusMut::drop_path_nodes"]}
{"id": "C33", "title": "mutable focus split gives disjoint halves", "statement": "focus.split_at(i) for i <= len gives two mutable foci over the first i and the remaining elements; no position is reachable from both, and together they reach every position; it panics for i > len.", "quantifier": "every reachable vector, every nesting of splits and every split point", "why_tests_cant": "absence of aliasing cannot be observed", "anchors": ["src/focus.rs FocusMut::split_at", "src/focus.rs InnerFocusMut::split_at", "src/node_impls/basic.rs BorrowedInternal::split_at_child"]}
{"id": "C34", "title": "work on the halves of a split focus does not interfere", "statement": "If two workers write through the two halves of a split mutable focus, every interleaving of their writes leaves the same vector as doing one after the other. The same holds for any number of pieces, some of which are split further while others are in use.", "quantifier": "every interleaving (schedule) of the writes", "why_tests_cant": "schedules cannot be enumerated by tests", "anchors": ["src/focus.rs FocusMut::split_at"]}
{"id": "C35", "title": "sort sorts", "statement": "After v.sort_by(cmp) with cmp a total preorder, v is ordered by cmp and is a permutation of what it was; it terminates without panic whatever the random numbers are.", "quantifier": "every reachable vector, every total preorder and every stream of random numbers", "why_tests_cant": "randomised pivots: outcomes depend on an unbounded stream", "anchors": ["src/vector.rs InternalVector::sort_by", "src/vector.rs InternalVector::sort", "src/sort.rs do_single_sort"]}
{"id": "C36", "title": "sort_range touches only its range", "statement": "v.sort_range_by(cmp,a..b) with a <= b <= len sorts positions a..b among themselves and leaves all other positions unchanged.", "quantifier": "every reachable vector, range, total preorder and random stream", "why_tests_cant": "needs all ranges and pivot choices", "anchors": ["src/vector.rs InternalVector::sort_range_by", "src/vector.rs InternalVector::sort_range_by_key"]}
{"id": "C37", "title": "dual_sort moves the second vector along", "statement": "v.dual_sort_by(cmp,w) with w at least as long as v sorts v and applies the very same permutation to the first len(v) elements of w, so that pairs stay together; the rest of w is unchanged.", "quantifier": "every pair of reachable vectors, total preorder and random stream", "why_tests_cant": "pairs staying together under every pivot choice", "anchors": ["src/vector.rs InternalVector::dual_sort_by", "src/vector.rs InternalVector::dual_sort_range_by", "src/sort.rs do_dual_sort"]}
{"id": "C38", "title": "reverse and reverse_range", "statement": "v.reverse() reverses the sequence; v.reverse_range(a..b) with a <= b <= len reverses just positions a..b; applying it twice gives the old sequence.", "quantifier": "every reachable vector and range", "why_tests_cant": "all ranges over all shapes", "anchors": ["src/vector.rs InternalVector::reverse_range", "src/vector.rs InternalVector::reverse"]}
{"id": "C39", "title": "equal_range finds the block", "statement": "On a vector sorted with respect to f, equal_range_by(f) returns Ok(a..b) where a..b are exactly the indices comparing Equal, or Err(i) when there is none, where inserting at i keeps the order. It terminates without panic, also on an empty vector.", "quantifier": "every sorted vector and every consistent comparison", "why_tests_cant": "binary search over every length and block position", "anchors": ["src/vector.rs InternalVector::equal_range_by", "src/vector.rs InternalVector::equal_range_in_range_by"]}
{"id": "C40", "title": "equal_range in a sub-range", "statement": "equal_range_in_range_by(f,R) does the same restricted to the indices of R, for every kind of range bound (inclusive ends included), including empty ranges.", "quantifier": "every sorted vector, consistent comparison and range", "why_tests_cant": "all bound kinds and ranges", "anchors": ["src/vector.rs InternalVector::equal_range_in_range_by"]}
{"id": "C41", "title": "equal_range_for_index finds the block around an index", "statement": "equal_range_for_index_by(i,f) on a vector sorted with respect to f where index i compares Equal returns exactly the range of indices comparing Equal; the in_range variant does the same inside the given range, for every kind of range bound.", "quantifier": "every sorted vector, index, comparison and range", "why_tests_cant": "binary search in both directions from every index", "anchors": ["src/vector.rs InternalVector::equal_range_for_index_in_range_by", "src/vector.rs InternalVector::equal_range_for_index_by"]}
{"id": "C42", "title": "between_range finds the span", "statement": "between_range(f,g) returns Ok(a..b) of exactly the indices that are not below the lower bound and not above the upper bound on a sorted vector, or Err(i) with the insertion point.", "quantifier": "every sorted vector and pair of consistent bounds", "why_tests_cant": "two searches combined over all positions", "anchors": ["src/vector.rs InternalVector::between_range", "src/vector.rs InternalVector::between_range_in_range"]}
{"id": "C43", "title": "equality, ordering and hashing see only the sequence", "statement": "v == w exactly when they hold the same sequence, cmp is the lexicographic order of the sequences, and equal vectors feed a hasher the same input - however differently the two trees are shaped.", "quantifier": "every pair of reachable vectors", "why_tests_cant": "equal sequences have unboundedly many shapes", "anchors": ["src/vector.rs PartialEq", "src/vector.rs PartialOrd", "src/vector.rs Ord", "src/vector.rs Hash"]}
{"id": "C44", "title": "the tree stays low without concatenation", "statement": "A vector of n elements made by new, collect, push, pop, writes, split_off, slice_from_start and slice_to_end, in any order, has a tree of height h with n >= 62 * 64^(h-1) when h >= 1. So its height is at most ten, a vector of fewer than 64 elements is a single leaf, and the cost of an access is logarithmic in n.", "quantifier": "every history of calls without concatenation", "why_tests_cant": "an asymptotic claim", "anchors": ["src/vector.rs InternalVector::push_side", "src/vector.rs InternalVector::complete_leaf", "src/vector.rs InternalVector::empty_leaf", "src/vector.rs InternalVector::split_off", "src/vector.rs InternalVector::height"]}
{"id": "C45", "title": "annotated sums are right", "statement": "For a vector of the sum-annotated node type, sum(range) is the sum of the elements in the range, after any history.", "quantifier": "every reachable annotated vector and range", "why_tests_cant": "cached sums are adjusted in each restructuring; a test with equal elements cannot see a mix-up", "anchors": ["src/node_impls/annotated_basic.rs Leaf::share_children_with", "src/node_impls/annotated_basic.rs Internal::sum", "src/node_impls/annotated_basic.rs SumVector", "src/node_impls/annotated_basic.rs Drop for BorrowedLeaf, BorrowedInternal", "src/focus.rs FocusMut::get"]}
{"id": "C46", "title": "an inconsistent comparator loses nothing", "statement": "Whatever the comparator answers (it need not be an order), v.sort_range_by either returns with the range rearranged and the rest unchanged, or panics, or loops forever; it never touches memory it may not, never loses or duplicates an item; the dual sort also keeps pairs together.", "quantifier": "every reachable vector, range, every function as comparator and every random stream", "why_tests_cant": "needs all comparators, including inconsistent ones such as partial orders on floats, on all inputs", "anchors": ["src/sort.rs do_single_sort", "src/sort.rs do_dual_sort", "src/vector.rs InternalVector::sort_range_by"]}
{"id": "C47", "title": "every 63 concatenations raise the tree", "statement": "Concatenating C vectors of at least two elements each, one after the other, onto a vector of height h >= 1 gives a tree of height at least h + (C - 62)/63, whatever the vectors are: the height is linear in the number of concatenations, and not O(log N + log(C/M^2)) as the documentation says.", "quantifier": "every vector of height at least one and every sequence of vectors appended to it", "why_tests_cant": "an asymptotic claim; the documented bound is contradicted for every constant factor up to 2^48", "anchors": ["src/vector.rs InternalVector::append", "src/vector.rs:175-232"]}
{"id": "C48", "title": "nodes are freed exactly when nothing refers to them", "statement": "After any program of calls, a node is in memory exactly if some vector refers to it, directly or through nodes above it, and its reference count is the number of references to it. Once all vectors are gone, every node has been freed: there is no leak, no double free, and no dangling pointer.", "quantifier": "every program of calls on any number of vectors that share nodes, the ones that end vectors included", "why_tests_cant": "sharing patterns depend on the whole history; a leak is not observed by any assertion, and a dangling pointer may go unnoticed", "anchors": ["src/node_impls/basic.rs SharedPointerEntry", "src/vector.rs InternalVector::append", "src/vector.rs InternalVector::split_off"]}
{"id": "C49", "title": "without clone everything is written in place", "statement": "A program that never clones a vector (and does not call constant_vec_of_length, which clones) shares no node: after it every node in memory has exactly one owner, so that make_mut never copies. In such a state the calls that read or replace items (get, get_mut, front_mut, back_mut, sort, dual_sort, reverse, foci and mutable foci, iterators and mutable iterators, comparison) neither make nor free a node and leave the spines and roots of all vectors as they are.", "quantifier": "every program without clone, every call of the kinds named after it", "why_tests_cant": "which nodes are shared is not observable through the API, and it depends on the whole history of calls", "anchors": ["src/node_impls/basic.rs SharedPointerEntry::load_mut", "src/vector.rs InternalVector::get_mut", "src/vector.rs InternalVector::sort", "src/focus.rs FocusMut"]}
{"id": "C50", "title": "an update makes few nodes, however long and however shared the vector", "statement": "After any program of calls, on vectors of any length that share any number of nodes: clone, drop, reads, foci, iterators and comparison make no node at all. get_mut copies at most one path (height + 1 nodes), front_mut and back_mut one leaf. push, pop, split_off, slices, insert, remove, extract_slice, append and prepend make at most a constant times (height + 1) nodes, where the height is that of the vectors involved; a mutable focus or iterator at most 2 * height + 1 nodes to begin and height + 2 for each access or split. None of these bounds depends on the number of items.", "quantifier": "every program of calls, every call of the kinds named after it, every length and every pattern of sharing", "why_tests_cant": "allocations are not observable through the API, and the bound has to hold for all lengths, heights and sharing patterns", "anchors": ["src/node_impls/basic.rs SharedPointerEntry::load_mut", "src/vector.rs InternalVector::get_mut", "src/vector.rs InternalVector::append", "src/vector.rs InternalVector::split_off", "src/focus.rs FocusMut::get"]}
{"id": "C51", "title": "no item is kept in memory longer than a vector has it", "statement": "After any program of calls, every item in memory is an item of some vector, and none is there more often than all vectors have it together; an item that was popped, removed, overwritten or cut off is not kept alive in a node. If the program never clones a vector, the items in memory are exactly those of the vectors, each exactly once.", "quantifier": "every program of calls on any number of vectors, with or without shared nodes", "why_tests_cant": "an item left behind in a slot, or moved while the old slot stays live, shows only as a leak or a double drop, for some histories of sharing", "anchors": ["src/circular.rs CircularBuffer", "src/node_impls/basic.rs Leaf::share_children_with", "src/node_impls/basic.rs SharedPointerEntry", "src/vector.rs InternalVector::split_off"]}
{"id": "C52", "title": "sorting survives a comparator that panics or changes its mind", "statement": "The comparator of sort_range_by and dual_sort_range_by may carry a state, answer the same question differently each time, and panic at any call. Wherever the sort is interrupted, the vector left behind shows exactly the items that it showed before, those of the range in some order and those outside of the range at their places; with two vectors, both were rearranged in the same way. A refused range leaves the vector as it was. If the comparator always answers like a consistent order, whatever it does with its state, the sort returns and the range is ordered.", "quantifier": "every vector, range, comparator with state, point of interruption and random stream", "why_tests_cant": "the panic can come at any of the comparisons, and the state of the vector between two comparisons is never seen by a test that runs the sort to its end", "anchors": ["src/sort.rs do_single_sort", "src/sort.rs do_dual_sort", "src/vector.rs InternalVector::sort_range_by", "src/vector.rs InternalVector::dual_sort_range_by"]}
{"id": "C53", "title": "a search calls the comparison a logarithmic number of times", "statement": "equal_range_by and equal_range_in_range_by over a range of at most 2^n items call the comparison at most 2n+1 times, equal_range_for_index_in_range_by at most 2n+2 times, and only on items of the range. This holds for every comparison, also one that keeps a state, contradicts itself or panics; over a range with items the search panics only where the comparison panics. A comparison that answers like a function, whatever it does with its state, gives the result of that function.", "quantifier": "every vector, nonempty range within the vector and comparison with state", "why_tests_cant": "a test counts the calls for some lengths and some comparisons; the bound is over all lengths, all answers and all shapes of the tree", "anchors": ["src/vector.rs InternalVector::equal_range_by", "src/vector.rs InternalVector::equal_range_in_range_by", "src/vector.rs InternalVector::equal_range_for_index_in_range_by"]}
{"id": "C54", "title": "a sort calls the comparator at most quadratically often, and on equal items always does", "statement": "With a comparator that answers like a consistent order, sort_range_by and dual_sort_range_by over n items return after at most 4n^2 calls of the comparator, all about items of the range, whatever numbers the random generator gives. When the n items of the range are all equal, sort_range_by makes exactly n(n-1)/2 calls for every random stream, and its recursive calls are n deep.", "quantifier": "every vector, range, consistent comparator with state and random stream", "why_tests_cant": "the number of calls depends on the random stream; a test sees some streams and some lengths", "anchors": ["src/sort.rs do_single_sort", "src/sort.rs do_dual_sort", "src/vector.rs InternalVector::sort_range_by", "src/vector.rs InternalVector::dual_sort_range_by"]}
{"id": "C55", "title": "a panic in an item's Clone does not damage the vector that is pushed to or popped from", "statement": "If a vector shares leaves with a clone of it, push_back, push_front, pop_back and pop_front clone items. When Clone::clone of an item panics and the panic is caught, the vector shows the items it had before the call, or the call has had its effect (the item is pushed). Without a panic the call does what it does on an unshared vector.", "quantifier": "every vector, item and behaviour of Clone, that is every choice of which leaf copy panics", "why_tests_cant": "where the panic strikes depends on which leaves are shared, on the shape of the tree and on which item refuses to be cloned; the code path is interrupted at every possible point", "anchors": ["src/vector.rs InternalVector::push_side", "src/vector.rs InternalVector::pop_side", "src/vector.rs InternalVector::complete_leaf", "src/vector.rs InternalVector::empty_leaf", "src/vector.rs InternalVector::fixup_spine_tops", "src/node_traits.rs NodeRc::share_children_with"]}
{"id": "C56", "title": "vectors in different threads that share nodes do not influence each other", "statement": "Vectors of type ThreadSafeVector that share nodes (by clone) are handed out to different threads: some are moved, each to one thread, and some are lent to all of them by shared reference. Each thread runs a program of calls; it may read, clone and compare the lent vectors, and do anything with its own ones. Under every interleaving of their steps: no thread accesses freed memory; each thread gets the answers, and leaves its vectors with the contents, that it would if it ran alone, or panics as it would alone; the lent vectors keep their contents; if every thread is given steps again and again, all threads end; and no thread writes to a node or frees it while another thread is about to touch that node. After the threads have ended without a panic and were joined, a node is in memory exactly if a vector can reach it, and its reference count is the number of references to it.", "quantifier": "every state reachable by calls and by earlier rounds of threads, every choice of vectors to lend and every distribution of the others to any number of threads, every program for each thread, every schedule", "why_tests_cant": "a test sees a few schedules of a few threads; that copy-on-write through make_mut is right depends on no schedule letting one thread see a count of one while another thread can still reach the node", "anchors": ["src/lib.rs ThreadSafeVector", "src/node_impls/basic.rs SharedPointerEntry", "src/vector.rs InternalVector"]}
{"id": "C57", "title": "calls take a number of steps that depends on the height, not on the number of items", "statement": "However many items a vector has, and whatever it shares with its clones, a call touches nodes and reference counts a number of times that is bounded as the documentation says: a constant for new, singleton, len, front and back, a constant times the height for clone, get, writes, push, pop, append, prepend, split_off, the slices, insert and remove, and that times the number of accesses for iterators and foci. Over a whole program, freeing the nodes that are no longer needed does not take more than all other steps together.", "quantifier": "every reachable state of vectors that share nodes, every call", "why_tests_cant": "a test measures the time of a few calls; a walk over the whole tree in a rare case, or one that is fast for the sizes of the tests, does not show, and no assertion fails", "anchors": ["src/vector.rs:210-227", "src/vector.rs InternalVector", "src/node_impls/basic.rs Internal::split_at_position", "src/node_impls/basic.rs Internal::debug_check_invariants"]}
{"id": "C58", "title": "cutting, joining and borrowing when cloning an item panics", "statement": "A vector shares leaves with its clones, and to change a shared leaf its items are cloned, which may panic. If a panic of an item's Clone during get_mut, front_mut, back_mut, split_off, slice_from_start, slice_to_end, extract_slice, insert, remove, append or prepend is caught, the vector has the items it had before the call, or those it has after the call; no item is lost, and later calls do not panic for this reason.", "quantifier": "every vector reachable by calls, every index and argument, every choice of leaves that are shared and of items whose clone panics, every moment of the panic", "why_tests_cant": "needs a vector that shares leaves, of the right height, and a clone that panics at the one moment at which nodes are taken out of the vector; the tests use items whose clone never panics", "anchors": ["src/vector.rs:929-1101", "src/vector.rs:1227-1336", "src/vector.rs:1370-1375", "src/vector.rs:2042-2052", "src/vector.rs:888-899", "src/node_impls/basic.rs:840-863"]}
{"id": "C59", "title": "going on after a panic of an item's clone is memory safe", "statement": "If the panic of an item's Clone during a call is caught, the program may go on using what is left of the vector, even if items are lost or calls panic: push, pop, get, front, back, get_mut, front_mut, back_mut, iterators, foci, split_off, the slices, extract_slice, append, prepend, insert, remove, clone and drop read no slot that holds no item, overwrite no slot that holds one, and drop no item twice.", "quantifier": "every program of such calls on any number of vectors, every choice of leaves that are shared and of items whose clone panics, any number of caught panics", "why_tests_cant": "the vectors that are left have spines of different lengths, upside down, or a len that is not the number of items; no test builds one, and a read of a dead slot need not fail", "anchors": ["src/circular.rs CircularBuffer", "src/vector.rs InternalVector", "src/node_impls/basic.rs", "src/focus.rs Focus"]}
{"id": "C60", "title": "vectors take memory in proportion to their items", "statement": "After any program of calls that concatenates nothing there are at most one node for every 63 items, plus 21 nodes for each vector, in memory: 63 * nodes <= sum of the lengths + 1323 * number of vectors, however items were pushed, popped, cut off, written, cloned or dropped on the way. With concatenations (append, prepend, insert, remove, extract_slice, constant_vec_of_length) every vector still has at most len nodes on a level, apart from the two at its edges.", "quantifier": "every program of calls on any number of vectors, every item type and contents", "why_tests_cant": "tests look at items, not at how many nodes hold them; a tree of nearly empty nodes, or a node kept after the last item left it, behaves the same", "anchors": ["src/vector.rs push, pop, slice_from_start, slice_to_end, concat, fixup_spine_tops", "src/node_impls/basic.rs Leaf, Internal"]}
{"id": "C61", "title": "pushes, pops, reads and writes in constant time, collecting in linear time", "statement": "The documentation gives O(log N) for get and O(1) amortised for pushes. As long as a program concatenates nothing, a push takes at most 4198 steps, a pop 2413, get 32, a write through get_mut 791, clone and drop 21 (a step is a read or write of a node behind a pointer, a question to or a change of a reference count, or a new node), however many items there are and however much is shared with clones. A whole program of such calls takes at most the sum of these numbers, or twice that with the freeing of nodes. Collecting n items takes at most 4198*n + 1 steps after any program.", "quantifier": "every program of calls without concatenations and cuts, every length, item type and sharing; collecting after every program at all", "why_tests_cant": "tests do not count steps, and a benchmark sees one history; an occasional walk over the whole tree, a copy of a node that is not shared, or a tree that degenerates shows only for some histories", "anchors": ["src/vector.rs push, pop, get, get_mut, fixup_spine_tops, FromIterator", "src/node_impls/basic.rs make_mut"]}
{"id": "C62", "title": "threads that send each other vectors", "statement": "Vectors and clones that share nodes can be sent between running threads through channels, and what a thread does next may depend on the answers it got. Whatever the interleaving, also within calls, every thread gets answers that it could get if threads had plain sequences of their own and did each call at once; a write in one thread is seen by no vector of another thread or in a channel; no thread writes or frees a node that another one is about to touch; every call ends whatever the others do; and between calls a node is in memory exactly if some vector of a thread or in a channel needs it.", "quantifier": "every number of threads, every plan (function from answers to the next call, send or receive), every distribution of vectors that share nodes, every schedule", "why_tests_cant": "interleavings within calls cannot be enumerated by tests; a count read at the wrong moment, or a node taken to be unshared while a message holds it, shows only in rare schedules", "anchors": ["src/lib.rs:90-98 ThreadSafeVector", "src/vector.rs InternalVector", "src/node_impls/basic.rs Leaf, Internal make_mut"]}
{"id": "C63", "title": "items that panic when they are dropped", "statement": "If the destructor of an item panics while a vector, an iterator that owns one, or the part that a slice cuts off is dropped, and the panic is caught, the program may go on: no item is dropped twice, no item is dropped that another vector still has, all other vectors, also clones that share nodes with the dropped one, keep their contents, and all later calls on them answer as if no item had panicked. The program is aborted only if a second item panics in the same drop. As long as no item panics every item whose last node goes is dropped, and memory is freed as usual. (Items after the one that panicked may never be dropped.)", "quantifier": "every program of calls, slices and drops, every sharing of nodes, every behaviour of the items' destructors (with a state of their own)", "why_tests_cant": "which item panics, in which node, shared with which clones, gives unboundedly many cases, and an item that is dropped twice or a dangling count does not show in a test's answers", "anchors": ["src/circular.rs:546-607 CircularBuffer::drop", "src/vector.rs:388-396 InternalVector", "src/node_impls/basic.rs:7-81 SharedPointerEntry", "src/vector.rs:1130-1165 slice_from_start, slice_to_end", "src/vector.rs:2639-2684 IntoIter"]}
{"id": "C64", "title": "mutable foci in other threads", "statement": "No safe program has a data race on the nodes of its vectors, with either kind of pointer: as FocusMut is Send whenever the items are, a mutable focus may be made in one thread and used in another one, while the first one goes on with clones of the vector; no pointer dangles, and all vectors have the contents that they would have if the calls came one after the other.", "quantifier": "every program in every thread, every order of steps, counts that are atomic (Arc) or read and written in two steps (Rc)", "why_tests_cant": "it takes two threads in the middle of changing the same count; a test sees one order of steps, and the corrupted count shows much later if at all", "anchors": ["src/focus.rs:402-413 unsafe impl Send/Sync for FocusMut", "src/lib.rs:76-98 Vector, ThreadSafeVector", "src/node_impls/basic.rs:7-81 SharedPointerEntry"]}
{"id": "C65", "title": "calls that only look, or that have nothing to do, leave the memory as it is", "statement": "Looking at vectors – length, items, both ends, iterators, foci, comparisons – leaves all of the memory exactly as it was: no node is made, copied, written or freed and no reference count changes. So does a call that finds nothing to write to or to take (get_mut, remove beyond the end; pops, front_mut and back_mut of an empty vector; a mutable focus or iterator that is not used), and so does a clone that is dropped again. A slice that is the whole vector leaves all nodes that there were.", "quantifier": "every program before the call, every vector with every amount of sharing, every position", "why_tests_cant": "the contents are the same either way: a needless copy of a shared node shows only as memory and time, and only where a node happens to be shared", "anchors": ["src/vector.rs:817-898 front, front_mut, back, back_mut, get", "src/vector.rs:725-761 pop_side", "src/vector.rs:2042-2054 remove", "src/vector.rs:2131 iter", "src/vector.rs:400-410 clone", "src/focus.rs Focus::get"]}
