{
 "claims": [
  {
   "property": "C01",
   "status": "proved",
   "theorems": [
    "Librrb.C01_push_back",
    "Librrb.C01_push_back_full"
   ],
   "note": ""
  },
  {
   "property": "C02",
   "status": "proved",
   "theorems": [
    "Librrb.C02_push_front"
   ],
   "note": ""
  },
  {
   "property": "C03",
   "status": "proved",
   "theorems": [
    "Librrb.C03_pop_back"
   ],
   "note": ""
  },
  {
   "property": "C04",
   "status": "proved",
   "theorems": [
    "Librrb.C04_pop_front"
   ],
   "note": ""
  },
  {
   "property": "C05",
   "status": "proved",
   "theorems": [
    "Librrb.C05_len_is_empty"
   ],
   "note": ""
  },
  {
   "property": "C06",
   "status": "proved",
   "theorems": [
    "Librrb.C06_get",
    "Librrb.C06_get_push"
   ],
   "note": ""
  },
  {
   "property": "C07",
   "status": "proved",
   "theorems": [
    "Librrb.C07_get_mut"
   ],
   "note": ""
  },
  {
   "property": "C08",
   "status": "proved",
   "theorems": [
    "Librrb.C08_front_back",
    "Librrb.C08_front_back_mut"
   ],
   "note": ""
  },
  {
   "property": "C09",
   "status": "proved",
   "theorems": [
    "Librrb.C09_append",
    "Librrb.C09_append_full"
   ],
   "note": ""
  },
  {
   "property": "C10",
   "status": "proved",
   "theorems": [
    "Librrb.C10_prepend"
   ],
   "note": ""
  },
  {
   "property": "C11",
   "status": "proved",
   "theorems": [
    "Librrb.C11_split_off"
   ],
   "note": ""
  },
  {
   "property": "C12",
   "status": "proved",
   "theorems": [
    "Librrb.C12_split_append"
   ],
   "note": ""
  },
  {
   "property": "C13",
   "status": "proved",
   "theorems": [
    "Librrb.C13_slices"
   ],
   "note": ""
  },
  {
   "property": "C14",
   "status": "proved",
   "theorems": [
    "Librrb.C14_extract_slice"
   ],
   "note": ""
  },
  {
   "property": "C15",
   "status": "proved",
   "theorems": [
    "Librrb.C15_insert",
    "Librrb.C15_insert_full"
   ],
   "note": ""
  },
  {
   "property": "C16",
   "status": "proved",
   "theorems": [
    "Librrb.C16_remove"
   ],
   "note": ""
  },
  {
   "property": "C17",
   "status": "proved",
   "theorems": [
    "Librrb.C17_history",
    "Librrb.C17_usable"
   ],
   "note": ""
  },
  {
   "property": "C18",
   "status": "proved",
   "theorems": [
    "Librrb.C18_invariants"
   ],
   "note": ""
  },
  {
   "property": "C19",
   "status": "proved",
   "theorems": [
    "Librrb.C19_programs",
    "Librrb.C19_constant",
    "Librrb.C19_focus",
    "Librrb.C19_focus_mut",
    "Librrb.C19_search",
    "Librrb.C19_sort",
    "Librrb.C19_iterators"
   ],
   "note": ""
  },
  {
   "property": "C20",
   "status": "proved",
   "theorems": [
    "Librrb.C20_deque",
    "Librrb.C20_push_pop"
   ],
   "note": ""
  },
  {
   "property": "C21",
   "status": "proved",
   "theorems": [
    "Librrb.C21_clone_drop"
   ],
   "note": ""
  },
  {
   "property": "C22",
   "status": "partial",
   "theorems": [
    "Librrb.C22_iter",
    "Librrb.C22_iter_mut",
    "Librrb.C22_into_iter_partial",
    "Librrb.C22_into_iter_next_back"
   ],
   "note": "Proved in full for Iter and IterMut. For IntoIter (crate-private, used only by tests) the claim is false: next_back reads the front slot; the failure is proved, and the forward direction is proved."
  },
  {
   "property": "C23",
   "status": "proved",
   "theorems": [
    "Librrb.C23_iter"
   ],
   "note": ""
  },
  {
   "property": "C24",
   "status": "proved",
   "theorems": [
    "Librrb.C24_iter_mut",
    "Librrb.C24_iter_mut_map",
    "Librrb.C24_iter_mut_part"
   ],
   "note": ""
  },
  {
   "property": "C25",
   "status": "proved",
   "theorems": [
    "Librrb.C25_into_iter"
   ],
   "note": ""
  },
  {
   "property": "C26",
   "status": "proved",
   "theorems": [
    "Librrb.C26_collect_iter",
    "Librrb.C26_collect_into_iter"
   ],
   "note": ""
  },
  {
   "property": "C27",
   "status": "partial",
   "theorems": [
    "Librrb.C27_constant_partial",
    "Librrb.C27_constant_overflow"
   ],
   "note": "The claim is false for n >= 2^63: the accumulator overflows. Proved for n < 2^63, and the failure is proved."
  },
  {
   "property": "C28",
   "status": "proved",
   "theorems": [
    "Librrb.C28_programs",
    "Librrb.C28_untouched",
    "Librrb.C28_clone"
   ],
   "note": "On the model in which nodes live in a heap and carry reference counts."
  },
  {
   "property": "C29",
   "status": "proved",
   "theorems": [
    "Librrb.C29_focus",
    "Librrb.C29_focus_index",
    "Librrb.C29_focus_any",
    "Librrb.C29_narrowed_tree",
    "Librrb.C29_focus_overflow"
   ],
   "note": "The focus of a whole vector answers every index. A focus that starts at s > 0 overflows for indices >= 2^64 - s; that exception is proved."
  },
  {
   "property": "C30",
   "status": "partial",
   "theorems": [
    "Librrb.C30_narrow_any_partial",
    "Librrb.C30_narrow_partial",
    "Librrb.C30_narrow_refuses_partial",
    "Librrb.C30_narrow_empty_partial",
    "Librrb.C30_narrow_widens",
    "Librrb.C30_narrow_empty_panics"
   ],
   "note": "False in general: a focus that does not start at 0 can be widened by narrow, and narrowing to an empty range can panic. Both failures are proved, and the rest of the claim, and for every call that returns what the result reads."
  },
  {
   "property": "C31",
   "status": "partial",
   "theorems": [
    "Librrb.C31_split_at_any_partial",
    "Librrb.C31_split_at_partial",
    "Librrb.C31_split_at_narrowed",
    "Librrb.C31_split_at_ends_panic"
   ],
   "note": "False in general: split_at takes the index as a position in the vector rather than in the focus, and it panics at the length of the focus. The failures are proved; proved positively for foci that start at 0 and interior positions, and for every call that returns what the parts read."
  },
  {
   "property": "C32",
   "status": "partial",
   "theorems": [
    "Librrb.C32_focus_mut_partial",
    "Librrb.C32_focus_mut_careful_partial",
    "Librrb.C32_focus_mut_exact",
    "Librrb.C32_focus_mut_index",
    "Librrb.C32_focus_mut_any",
    "Librrb.C32_focus_mut_panics",
    "Librrb.C32_focus_mut_end_panics"
   ],
   "note": "False in general: after an access out of range the next one can panic; on every vector with items this is proved for the first and the last item. Proved: exactly which scripts of accesses panic; all others are answered as the sequence answers them, and there is never a wrong answer."
  },
  {
   "property": "C33",
   "status": "proved",
   "theorems": [
    "Librrb.C33_range",
    "Librrb.C33_split_at",
    "Librrb.C33_disjoint"
   ],
   "note": ""
  },
  {
   "property": "C34",
   "status": "proved",
   "theorems": [
    "Librrb.C34_workers",
    "Librrb.C34_schedule",
    "Librrb.C34_halves",
    "Librrb.C34_pieces"
   ],
   "note": ""
  },
  {
   "property": "C35",
   "status": "proved",
   "theorems": [
    "Librrb.C35_sort_by",
    "Librrb.C35_sort"
   ],
   "note": ""
  },
  {
   "property": "C36",
   "status": "proved",
   "theorems": [
    "Librrb.C36_sort_range",
    "Librrb.C36_sort_range_refused",
    "Librrb.C36_sort_range_by_key"
   ],
   "note": ""
  },
  {
   "property": "C37",
   "status": "proved",
   "theorems": [
    "Librrb.C37_dual_sort",
    "Librrb.C37_dual_sort_range",
    "Librrb.C37_dual_sort_refused"
   ],
   "note": ""
  },
  {
   "property": "C38",
   "status": "proved",
   "theorems": [
    "Librrb.C38_reverse",
    "Librrb.C38_reverse_range",
    "Librrb.C38_twice"
   ],
   "note": ""
  },
  {
   "property": "C39",
   "status": "partial",
   "theorems": [
    "Librrb.C39_equal_range_partial",
    "Librrb.C39_equal_range_value",
    "Librrb.C39_equal_range_returns",
    "Librrb.C39_empty_panics"
   ],
   "note": "Proved for every vector that is not empty. False for the empty vector, where the search panics: proved."
  },
  {
   "property": "C40",
   "status": "partial",
   "theorems": [
    "Librrb.C40_in_range_partial",
    "Librrb.C40_included_end",
    "Librrb.C40_included_wrong",
    "Librrb.C40_empty"
   ],
   "note": "Proved for ranges that are not empty and have an exclusive or no end. False for inclusive ends (an end x is taken as x - 1) and for empty ranges (wrong answer, panic or endless loop): both proved."
  },
  {
   "property": "C41",
   "status": "partial",
   "theorems": [
    "Librrb.C41_for_index",
    "Librrb.C41_for_index_in_range_partial",
    "Librrb.C41_included_wrong"
   ],
   "note": "Proved in full for equal_range_for_index_by, and for ranges with an exclusive or no end. False for inclusive ends: proved."
  },
  {
   "property": "C42",
   "status": "partial",
   "theorems": [
    "Librrb.C42_between_range_partial",
    "Librrb.C42_empty_panics"
   ],
   "note": "Proved with the exceptions that it inherits from equal_range (empty ranges, inclusive ends)."
  },
  {
   "property": "C43",
   "status": "proved",
   "theorems": [
    "Librrb.C43_eq",
    "Librrb.C43_eq_iff",
    "Librrb.C43_cmp",
    "Librrb.C43_partial_cmp",
    "Librrb.C43_hash",
    "Librrb.C43_hash_eq"
   ],
   "note": ""
  },
  {
   "property": "C44",
   "status": "proved",
   "theorems": [
    "Librrb.C44_height",
    "Librrb.C44_at_most_ten"
   ],
   "note": ""
  },
  {
   "property": "C45",
   "status": "partial",
   "theorems": [
    "Librrb.C45_items_partial",
    "Librrb.C45_small_partial",
    "Librrb.C45_sum_partial",
    "Librrb.C45_guarded_partial",
    "Librrb.C45_focus_partial",
    "Librrb.C45_look_partial",
    "Librrb.C45_pass_partial",
    "Librrb.C45_focus_stale",
    "Librrb.C45_pass_stale",
    "Librrb.C45_split_focus",
    "Librrb.C45_sort_wrong",
    "Librrb.C45_reverse_wrong",
    "Librrb.C45_wrong_sum",
    "Librrb.C45_pop_fails",
    "Librrb.C45_push_fails",
    "Librrb.C45_stale",
    "Librrb.C45_stale_pop_fails",
    "Librrb.C45_append_fails",
    "Librrb.C45_insert_fails",
    "Librrb.C45_remove_fails",
    "Librrb.C45_constant_fails",
    "Librrb.C45_split_fails"
   ],
   "note": "The claim is false: the theorems C45_wrong_sum, C45_stale, C45_focus_stale, C45_pass_stale, C45_split_focus, C45_sort_wrong, C45_reverse_wrong and C45_*_fails give reachable vectors whose sum is wrong or on which a push, pop, append, split, insertion, removal or constant_vec_of_length panics; for append, insert, remove, constant_vec_of_length and stale pops they cover all small vectors. Proved over whole programs, with clones, splitting, joining, slicing, iteration and collecting: whenever the calls return, answers and items are right (C45_items_partial); programs whose vectors stay within 64 items and join in small pieces return and have right sums (C45_small_partial); the sums are right wherever the caches are, and guarded writes keep them so. Mutable foci, the pieces they are split into, iter_mut, sort_range, dual_sort_range and reverse_range are in the programs: up to 64 items they all keep the sums right; beyond, writes through a focus keep the sums right if the last index asked for is out of range, the first or the last, a whole pass keeps them right, and so does only reading; otherwise they fail (C45_focus_stale, C45_pass_stale), and splitting a focus twice without any write is enough to make them wrong (C45_split_focus), as is sorting a range of one item (C45_sort_wrong)."
  },
  {
   "property": "C46",
   "status": "proved",
   "theorems": [
    "Librrb.C46_any_comparator",
    "Librrb.C46_any_comparator_dual",
    "Librrb.C46_panics"
   ],
   "note": "That a panic and an endless loop do occur is shown by the last theorem and an example beside it."
  },
  {
   "property": "C47",
   "status": "proved",
   "theorems": [
    "Librrb.C47_concatenation_raises",
    "Librrb.C47_height_linear",
    "Librrb.C47_not_logarithmic"
   ],
   "note": "This contradicts the bound in the documentation (src/vector.rs:182-185, :229-230)."
  },
  {
   "property": "C48",
   "status": "proved",
   "theorems": [
    "Librrb.C48_memory",
    "Librrb.C48_freed"
   ],
   "note": "Nodes, and for programs that do not panic; for the items inside of them see C51."
  },
  {
   "property": "C49",
   "status": "proved",
   "theorems": [
    "Librrb.C49_unshared",
    "Librrb.C49_in_place"
   ],
   "note": "On the heap model; items and size tables are values there."
  },
  {
   "property": "C50",
   "status": "proved",
   "theorems": [
    "Librrb.C50_nodes",
    "Librrb.C50_linear"
   ],
   "note": "On the heap model; nodes, not bytes. The bound is in terms of the height; how the height depends on the length is C44 and C47."
  },
  {
   "property": "C51",
   "status": "proved",
   "theorems": [
    "Librrb.C51_kept",
    "Librrb.C51_once"
   ],
   "note": "On the heap model, for programs that do not panic. What the user code does when an item is cloned or dropped is not modelled; that dropping a buffer drops each live item once is C21."
  },
  {
   "property": "C52",
   "status": "proved",
   "theorems": [
    "Librrb.C52_sort_range_left",
    "Librrb.C52_sort_range_refused",
    "Librrb.C52_sort_range_state",
    "Librrb.C52_dual_sort_range_left",
    "Librrb.C52_dual_sort_range_state"
   ],
   "note": "On the tree model; the number of rounds of the inner loop before the sort counts as not ending is a parameter (budget) of the theorems."
  },
  {
   "property": "C53",
   "status": "proved",
   "theorems": [
    "Librrb.C53_equal_range_calls",
    "Librrb.C53_for_index_calls",
    "Librrb.C53_state",
    "Librrb.C53_count"
   ],
   "note": "The comparison of the model has a state and may panic. End bounds of the form ..=e are left out, since the code misreads them (C39-C42)."
  },
  {
   "property": "C54",
   "status": "proved",
   "theorems": [
    "Librrb.C54_sort_range_calls",
    "Librrb.C54_dual_sort_range_calls",
    "Librrb.C54_equal_items",
    "Librrb.C54_depth"
   ],
   "note": "Counted in a build with debug assertions, which ask two questions more per exchange. The depth is stated on the model function of do_single_sort, as the number of calls inside of one another; the stack itself is not modelled."
  },
  {
   "property": "C55",
   "status": "partial",
   "theorems": [
    "Librrb.C55_push_back_partial",
    "Librrb.C55_push_front_partial",
    "Librrb.C55_pop_back_partial",
    "Librrb.C55_pop_front_partial",
    "Librrb.C55_push_full",
    "Librrb.C55_pop_short",
    "Librrb.C55_pop_merge"
   ],
   "note": "Proved for pushing to vectors that do not have exactly 64 items, and for popping from vectors of more than 129 items; which leaves are shared is quantified over. False otherwise: a vector that is one leaf loses all its items when a push to 64 items is interrupted, and counts its items wrong when a pop is interrupted (proved for all such vectors), and a vector of two leaves can lose all its items in a pop."
  },
  {
   "property": "C56",
   "status": "proved",
   "theorems": [
    "Librrb.C56_threads",
    "Librrb.C56_ends",
    "Librrb.C56_no_race",
    "Librrb.C56_memory"
   ],
   "note": "On the heap model, with atomic steps that all threads see in one order; the memory orderings of Arc are not modelled. Threads that panic stop without unwinding. Vectors are moved to threads and back, or lent to all threads of a round."
  },
  {
   "property": "C57",
   "status": "partial",
   "theorems": [
    "Librrb.C57_steps_partial",
    "Librrb.C57_linear_partial",
    "Librrb.C57_freeing",
    "Librrb.C57_cuts_are_slow",
    "Librrb.C57_cuts_unbounded"
   ],
   "note": "On the heap model: reads and writes of nodes behind pointers, questions to and changes of reference counts, new nodes. Proved for all calls that do not cut a vector. False for split_off, the slices, insert and remove: split_at_position walks all nodes of both halves to check their invariants (basic.rs:860-861), so they take at least len/(66(2h+1)) steps at some place of every vector. What a call does with a node of at most 64 slots, or a list of borrowed nodes, that it holds already is not counted."
  },
  {
   "property": "C58",
   "status": "partial",
   "theorems": [
    "Librrb.C58_quiet",
    "Librrb.C58_quiet_slices",
    "Librrb.C58_get_mut",
    "Librrb.C58_front_back_mut",
    "Librrb.C58_split_short_partial",
    "Librrb.C58_append_short_partial",
    "Librrb.C58_append_low_partial",
    "Librrb.C58_split_tall",
    "Librrb.C58_remove",
    "Librrb.C58_insert",
    "Librrb.C58_insert_end",
    "Librrb.C58_extract_slice",
    "Librrb.C58_extract_empty",
    "Librrb.C58_remove_first",
    "Librrb.C58_append_one",
    "Librrb.C58_insert_first",
    "Librrb.C58_append_taller",
    "Librrb.C58_append_tall"
   ],
   "note": "Proved for get_mut, front_mut and back_mut; for split_off and the slices on vectors that are one leaf; and for append if both vectors are one leaf, or if both are at most one level above their leaves and the first is not a leaf (vectors of one item aside). False otherwise, proved for all such vectors: split_off and the slices lose items whenever they unwind, so do remove, insert (before the last item but one or earlier) and extract_slice (of a slice that is not empty); remove(0) and insert(0) leave the vector empty, append to a vector of one item loses it, append of a taller vector to a leaf loses the items of the leaf, append of tall vectors leaves spines of different lengths. So does extract_slice of an empty slice that is not before the last item. insert after the last item is push_back, see C55. For insert before the last item, and for the empty slice there, only that they do what they do otherwise if no clone panics."
  },
  {
   "property": "C59",
   "status": "proved",
   "theorems": [
    "Librrb.C59_no_ub",
    "Librrb.C59_quiet",
    "Librrb.C59_quiet_reads"
   ],
   "note": "All programs of the calls named, in the debug profile; recursions and loops are followed for any number of steps beyond what an orderly vector needs, so a vector whose levels are wrong is followed too. Not followed: what a call drops on the way, states after panics that are not of Clone; mutable foci and iterators, and sort, are not among the calls."
  },
  {
   "property": "C60",
   "status": "proved",
   "theorems": [
    "Librrb.C60_nodes",
    "Librrb.C60_dense",
    "Librrb.C60_linear",
    "Librrb.C60_joins"
   ],
   "note": "Nodes are counted, not bytes: a node has 64 slots whether they are used or not. C60_linear is for programs without concatenations, C60_nodes for all; C60_joins shows that the first bound fails with concatenations."
  },
  {
   "property": "C61",
   "status": "proved",
   "theorems": [
    "Librrb.C61_collect",
    "Librrb.C61_constant",
    "Librrb.C61_program",
    "Librrb.C61_work"
   ],
   "note": "On the heap model, steps as in C57. For programs without concatenations (C61_collect: after any program); calls that cut a vector are left out, they take linear time (C57)."
  },
  {
   "property": "C62",
   "status": "proved",
   "theorems": [
    "Librrb.C62_messages",
    "Librrb.C62_no_race",
    "Librrb.C62_calls_end",
    "Librrb.C62_memory"
   ],
   "note": "On the heap model, with atomic steps that all threads see in one order, as for C56. A thread that panics stops without unwinding, so C62_memory is about states in which none has panicked. A plan that sends a vector the thread does not have does nothing."
  },
  {
   "property": "C63",
   "status": "proved",
   "theorems": [
    "Librrb.C63_programs",
    "Librrb.C63_once",
    "Librrb.C63_once_slices",
    "Librrb.C63_quiet",
    "Librrb.C63_forgets"
   ],
   "note": "On the heap model. Items panic in the drops of variables and iterators and in the slices; the other calls drop no items. The memory of a node that was being freed when the panic passed through counts as freed. C63_forgets: what is not promised, the items after the one that panicked and the other children of the nodes above it are leaked, where Vec of the standard library drops the others."
  },
  {
   "property": "C64",
   "status": "partial",
   "theorems": [
    "Librrb.C64_race",
    "Librrb.C64_orderly_partial"
   ],
   "note": "True with Arc, which is C56. False with Rc, as FocusMut is Send for every kind of pointer: C64_race is a program with two threads in which a leaf is freed that a vector still has, and then read. For Rc it is proved only for orders of steps in which no thread takes a step while another one is in the middle of changing a count."
  },
  {
   "property": "C65",
   "status": "partial",
   "theorems": [
    "Librrb.C65_reads",
    "Librrb.C65_clone_drop",
    "Librrb.C65_whole_slices",
    "Librrb.C65_refused_partial",
    "Librrb.C65_front_mut_copies",
    "Librrb.C65_focus_copies"
   ],
   "note": "On the heap model. False for front_mut and back_mut of every empty vector with a clone: they return None but copy the leaf. False for a mutable focus that is not used, of every vector with items and a clone: it copies nodes; by example also for iter_mut and for reversing an empty range."
  }
 ]
}