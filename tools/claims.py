L=lambda *xs:['Librrb.'+x for x in xs]
c('C01','proved',L('C01_push_back','C01_push_back_full'))
c('C02','proved',L('C02_push_front'))
c('C03','proved',L('C03_pop_back'))
c('C04','proved',L('C04_pop_front'))
c('C05','proved',L('C05_len_is_empty'))
c('C06','proved',L('C06_get','C06_get_push'))
c('C07','proved',L('C07_get_mut'))
c('C08','proved',L('C08_front_back','C08_front_back_mut'))
c('C09','proved',L('C09_append','C09_append_full'))
c('C10','proved',L('C10_prepend'))
c('C11','proved',L('C11_split_off'))
c('C12','proved',L('C12_split_append'))
c('C13','proved',L('C13_slices'))
c('C14','proved',L('C14_extract_slice'))
c('C15','proved',L('C15_insert','C15_insert_full'))
c('C16','proved',L('C16_remove'))
c('C18','proved',L('C18_invariants'))
c('C27','partial',L('C27_constant_partial','C27_constant_overflow'),'The claim is false for n >= 2^63: the accumulator overflows. Proved for n < 2^63, and the failure is proved.')
c('C20','proved',L('C20_deque','C20_push_pop'))
c('C21','proved',L('C21_clone_drop'))
c('C22','partial',L('C22_iter','C22_iter_mut','C22_into_iter_partial','C22_into_iter_next_back'),'Proved in full for Iter and IterMut. For IntoIter (crate-private, used only by tests) the claim is false: next_back reads the front slot; the failure is proved, and the forward direction is proved.')
c('C23','proved',L('C23_iter'))
c('C25','proved',L('C25_into_iter'))
c('C26','proved',L('C26_collect_iter','C26_collect_into_iter'))
c('C29','proved',L('C29_focus','C29_focus_index','C29_focus_any','C29_narrowed_tree','C29_focus_overflow'),'The focus of a whole vector answers every index. A focus that starts at s > 0 overflows for indices >= 2^64 - s; that exception is proved.')
c('C30','partial',L('C30_narrow_any_partial','C30_narrow_partial','C30_narrow_refuses_partial','C30_narrow_empty_partial','C30_narrow_widens','C30_narrow_empty_panics'),'False in general: a focus that does not start at 0 can be widened by narrow, and narrowing to an empty range can panic. Both failures are proved, and the rest of the claim, and for every call that returns what the result reads.')
c('C31','partial',L('C31_split_at_any_partial','C31_split_at_partial','C31_split_at_narrowed','C31_split_at_ends_panic'),'False in general: split_at takes the index as a position in the vector rather than in the focus, and it panics at the length of the focus. The failures are proved; proved positively for foci that start at 0 and interior positions, and for every call that returns what the parts read.')
c('C24','proved',L('C24_iter_mut','C24_iter_mut_map','C24_iter_mut_part'))
c('C32','partial',L('C32_focus_mut_partial','C32_focus_mut_careful_partial','C32_focus_mut_exact','C32_focus_mut_index','C32_focus_mut_any','C32_focus_mut_panics','C32_focus_mut_end_panics'),'False in general: after an access out of range the next one can panic; on every vector with items this is proved for the first and the last item. Proved: exactly which scripts of accesses panic; all others are answered as the sequence answers them, and there is never a wrong answer.')
c('C33','proved',L('C33_range','C33_split_at','C33_disjoint'))
c('C34','proved',L('C34_workers','C34_schedule','C34_halves','C34_pieces'))
c('C39','partial',L('C39_equal_range_partial','C39_equal_range_value','C39_equal_range_returns','C39_empty_panics'),'Proved for every vector that is not empty. False for the empty vector, where the search panics: proved.')
c('C40','partial',L('C40_in_range_partial','C40_included_end','C40_included_wrong','C40_empty'),'Proved for ranges that are not empty and have an exclusive or no end. False for inclusive ends (an end x is taken as x - 1) and for empty ranges (wrong answer, panic or endless loop): both proved.')
c('C41','partial',L('C41_for_index','C41_for_index_in_range_partial','C41_included_wrong'),'Proved in full for equal_range_for_index_by, and for ranges with an exclusive or no end. False for inclusive ends: proved.')
c('C42','partial',L('C42_between_range_partial','C42_empty_panics'),'Proved with the exceptions that it inherits from equal_range (empty ranges, inclusive ends).')
c('C43','proved',L('C43_eq','C43_eq_iff','C43_cmp','C43_partial_cmp','C43_hash','C43_hash_eq'))
c('C35','proved',L('C35_sort_by','C35_sort'))
c('C36','proved',L('C36_sort_range','C36_sort_range_refused','C36_sort_range_by_key'))
c('C37','proved',L('C37_dual_sort','C37_dual_sort_range','C37_dual_sort_refused'))
c('C38','proved',L('C38_reverse','C38_reverse_range','C38_twice'))
c('C46','proved',L('C46_any_comparator','C46_any_comparator_dual','C46_panics'),'That a panic and an endless loop do occur is shown by the last theorem and an example beside it.')
c('C17','proved',L('C17_history','C17_usable'))
c('C19','proved',L('C19_programs','C19_constant','C19_focus','C19_focus_mut','C19_search','C19_sort','C19_iterators'))
c('C44','proved',L('C44_height','C44_at_most_ten'))
c('C47','proved',L('C47_concatenation_raises','C47_height_linear','C47_not_logarithmic'),'This contradicts the bound in the documentation (src/vector.rs:182-185, :229-230).')
c('C45','partial',L('C45_items_partial','C45_small_partial','C45_sum_partial','C45_guarded_partial','C45_focus_partial','C45_look_partial','C45_pass_partial','C45_focus_stale','C45_pass_stale','C45_split_focus','C45_sort_wrong','C45_reverse_wrong','C45_wrong_sum','C45_pop_fails','C45_push_fails','C45_stale','C45_stale_pop_fails','C45_append_fails','C45_insert_fails','C45_remove_fails','C45_constant_fails','C45_split_fails'),'The claim is false: the theorems C45_wrong_sum, C45_stale, C45_focus_stale, C45_pass_stale, C45_split_focus, C45_sort_wrong, C45_reverse_wrong and C45_*_fails give reachable vectors whose sum is wrong or on which a push, pop, append, split, insertion, removal or constant_vec_of_length panics; for append, insert, remove, constant_vec_of_length and stale pops they cover all small vectors. Proved over whole programs, with clones, splitting, joining, slicing, iteration and collecting: whenever the calls return, answers and items are right (C45_items_partial); programs whose vectors stay within 64 items and join in small pieces return and have right sums (C45_small_partial); the sums are right wherever the caches are, and guarded writes keep them so. Mutable foci, the pieces they are split into, iter_mut, sort_range, dual_sort_range and reverse_range are in the programs: up to 64 items they all keep the sums right; beyond, writes through a focus keep the sums right if the last index asked for is out of range, the first or the last, a whole pass keeps them right, and so does only reading; otherwise they fail (C45_focus_stale, C45_pass_stale), and splitting a focus twice without any write is enough to make them wrong (C45_split_focus), as is sorting a range of one item (C45_sort_wrong).')
c('C28','proved',L('C28_programs','C28_untouched','C28_clone'),'On the model in which nodes live in a heap and carry reference counts.')
c('C48','proved',L('C48_memory','C48_freed'),'Nodes, and for programs that do not panic; for the items inside of them see C51.')
c('C56','proved',L('C56_threads','C56_ends','C56_no_race','C56_memory'),'On the heap model, with atomic steps that all threads see in one order; the memory orderings of Arc are not modelled. Threads that panic stop without unwinding. Vectors are moved to threads and back, or lent to all threads of a round.')
c('C50','proved',L('C50_nodes','C50_linear'),'On the heap model; nodes, not bytes. The bound is in terms of the height; how the height depends on the length is C44 and C47.')
c('C52','proved',L('C52_sort_range_left','C52_sort_range_refused','C52_sort_range_state','C52_dual_sort_range_left','C52_dual_sort_range_state'),'On the tree model; the number of rounds of the inner loop before the sort counts as not ending is a parameter (budget) of the theorems.')
c('C53','proved',L('C53_equal_range_calls','C53_for_index_calls','C53_state','C53_count'),'The comparison of the model has a state and may panic. End bounds of the form ..=e are left out, since the code misreads them (C39-C42).')
c('C54','proved',L('C54_sort_range_calls','C54_dual_sort_range_calls','C54_equal_items','C54_depth'),'Counted in a build with debug assertions, which ask two questions more per exchange. The depth is stated on the model function of do_single_sort, as the number of calls inside of one another; the stack itself is not modelled.')
c('C55','partial',L('C55_push_back_partial','C55_push_front_partial','C55_pop_back_partial','C55_pop_front_partial','C55_push_full','C55_pop_short','C55_pop_merge'),'Proved for pushing to vectors that do not have exactly 64 items, and for popping from vectors of more than 129 items; which leaves are shared is quantified over. False otherwise: a vector that is one leaf loses all its items when a push to 64 items is interrupted, and counts its items wrong when a pop is interrupted (proved for all such vectors), and a vector of two leaves can lose all its items in a pop.')
c('C58','partial',L('C58_quiet','C58_quiet_slices','C58_get_mut','C58_front_back_mut','C58_split_short_partial','C58_append_short_partial','C58_append_low_partial','C58_split_tall','C58_remove','C58_insert','C58_insert_end','C58_extract_slice','C58_extract_empty','C58_remove_first','C58_append_one','C58_insert_first','C58_append_taller','C58_append_tall'),'Proved for get_mut, front_mut and back_mut; for split_off and the slices on vectors that are one leaf; and for append if both vectors are one leaf, or if both are at most one level above their leaves and the first is not a leaf (vectors of one item aside). False otherwise, proved for all such vectors: split_off and the slices lose items whenever they unwind, so do remove, insert (before the last item but one or earlier) and extract_slice (of a slice that is not empty); remove(0) and insert(0) leave the vector empty, append to a vector of one item loses it, append of a taller vector to a leaf loses the items of the leaf, append of tall vectors leaves spines of different lengths. So does extract_slice of an empty slice that is not before the last item. insert after the last item is push_back, see C55. For insert before the last item, and for the empty slice there, only that they do what they do otherwise if no clone panics.')
c('C59','proved',L('C59_no_ub','C59_quiet','C59_quiet_reads'),'All programs of the calls named, in the debug profile; recursions and loops are followed for any number of steps beyond what an orderly vector needs, so a vector whose levels are wrong is followed too. Not followed: what a call drops on the way, states after panics that are not of Clone; mutable foci and iterators, and sort, are not among the calls.')
c('C60','proved',L('C60_nodes','C60_dense','C60_linear','C60_joins'),'Nodes are counted, not bytes: a node has 64 slots whether they are used or not. C60_linear is for programs without concatenations, C60_nodes for all; C60_joins shows that the first bound fails with concatenations.')
c('C51','proved',L('C51_kept','C51_once'),'On the heap model, for programs that do not panic. What the user code does when an item is cloned or dropped is not modelled; that dropping a buffer drops each live item once is C21.')
c('C49','proved',L('C49_unshared','C49_in_place'),'On the heap model; items and size tables are values there.')
c('C57','partial',L('C57_steps_partial','C57_linear_partial','C57_freeing','C57_cuts_are_slow','C57_cuts_unbounded'),'On the heap model: reads and writes of nodes behind pointers, questions to and changes of reference counts, new nodes. Proved for all calls that do not cut a vector. False for split_off, the slices, insert and remove: split_at_position walks all nodes of both halves to check their invariants (basic.rs:860-861), so they take at least len/(66(2h+1)) steps at some place of every vector. What a call does with a node of at most 64 slots, or a list of borrowed nodes, that it holds already is not counted.')
c('C61','proved',L('C61_collect','C61_constant','C61_program','C61_work'),'On the heap model, steps as in C57. For programs without concatenations (C61_collect: after any program); calls that cut a vector are left out, they take linear time (C57).')
c('C62','proved',L('C62_messages','C62_no_race','C62_calls_end','C62_memory'),'On the heap model, with atomic steps that all threads see in one order, as for C56. A thread that panics stops without unwinding, so C62_memory is about states in which none has panicked. A plan that sends a vector the thread does not have does nothing.')
c('C63','proved',L('C63_programs','C63_once','C63_once_slices','C63_quiet','C63_forgets'),'On the heap model. Items panic in the drops of variables and iterators and in the slices; the other calls drop no items. The memory of a node that was being freed when the panic passed through counts as freed. C63_forgets: what is not promised, the items after the one that panicked and the other children of the nodes above it are leaked, where Vec of the standard library drops the others.')
c('C64','partial',L('C64_race','C64_orderly_partial'),'True with Arc, which is C56. False with Rc, as FocusMut is Send for every kind of pointer: C64_race is a program with two threads in which a leaf is freed that a vector still has, and then read. For Rc it is proved only for orders of steps in which no thread takes a step while another one is in the middle of changing a count.')
c('C65','partial',L('C65_reads','C65_clone_drop','C65_whole_slices','C65_refused_partial','C65_front_mut_copies','C65_focus_copies'),'On the heap model. False for front_mut and back_mut of every empty vector with a clone: they return None but copy the leaf. False for a mutable focus that is not used, of every vector with items and a clone: it copies nodes; by example also for iter_mut and for reversing an empty range.')
