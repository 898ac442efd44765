import Verif.Props.Allowance
import Verif.Props.Annotated
import Verif.Props.Asking
import Verif.Props.Buffer
import Verif.Props.Clone
import Verif.Props.CloneUnwind
import Verif.Props.CloneUnwindCut
import Verif.Props.Cost
import Verif.Props.DropUnwind
import Verif.Props.Focus
import Verif.Props.FocusMut
import Verif.Props.Height
import Verif.Props.History
import Verif.Props.Interrupted
import Verif.Props.Memory
import Verif.Props.Messages
import Verif.Props.Pieces
import Verif.Props.RcThreads
import Verif.Props.Reads
import Verif.Props.Safety
import Verif.Props.Search
import Verif.Props.Sort
import Verif.Props.SortCalls
import Verif.Props.Space
import Verif.Props.Steps
import Verif.Props.StepsDense
import Verif.Props.Threads
import Verif.Props.Unwind
import Verif.Props.Vector

/-! # Axioms used by each property theorem (printed at build) -/
#print axioms Librrb.C01_push_back
#print axioms Librrb.C01_push_back_full
#print axioms Librrb.C02_push_front
#print axioms Librrb.C03_pop_back
#print axioms Librrb.C04_pop_front
#print axioms Librrb.C05_len_is_empty
#print axioms Librrb.C06_get
#print axioms Librrb.C06_get_push
#print axioms Librrb.C07_get_mut
#print axioms Librrb.C08_front_back
#print axioms Librrb.C08_front_back_mut
#print axioms Librrb.C09_append
#print axioms Librrb.C09_append_full
#print axioms Librrb.C10_prepend
#print axioms Librrb.C11_split_off
#print axioms Librrb.C12_split_append
#print axioms Librrb.C13_slices
#print axioms Librrb.C14_extract_slice
#print axioms Librrb.C15_insert
#print axioms Librrb.C15_insert_full
#print axioms Librrb.C16_remove
#print axioms Librrb.C17_history
#print axioms Librrb.C17_usable
#print axioms Librrb.C18_invariants
#print axioms Librrb.C19_programs
#print axioms Librrb.C19_constant
#print axioms Librrb.C19_focus
#print axioms Librrb.C19_focus_mut
#print axioms Librrb.C19_search
#print axioms Librrb.C19_sort
#print axioms Librrb.C19_iterators
#print axioms Librrb.C20_deque
#print axioms Librrb.C20_push_pop
#print axioms Librrb.C21_clone_drop
#print axioms Librrb.C22_iter
#print axioms Librrb.C22_iter_mut
#print axioms Librrb.C22_into_iter_partial
#print axioms Librrb.C22_into_iter_next_back
#print axioms Librrb.C23_iter
#print axioms Librrb.C24_iter_mut
#print axioms Librrb.C24_iter_mut_map
#print axioms Librrb.C24_iter_mut_part
#print axioms Librrb.C25_into_iter
#print axioms Librrb.C26_collect_iter
#print axioms Librrb.C26_collect_into_iter
#print axioms Librrb.C27_constant_partial
#print axioms Librrb.C27_constant_overflow
#print axioms Librrb.C28_programs
#print axioms Librrb.C28_untouched
#print axioms Librrb.C28_clone
#print axioms Librrb.C29_focus
#print axioms Librrb.C29_focus_index
#print axioms Librrb.C29_focus_any
#print axioms Librrb.C29_narrowed_tree
#print axioms Librrb.C29_focus_overflow
#print axioms Librrb.C30_narrow_any_partial
#print axioms Librrb.C30_narrow_partial
#print axioms Librrb.C30_narrow_refuses_partial
#print axioms Librrb.C30_narrow_empty_partial
#print axioms Librrb.C30_narrow_widens
#print axioms Librrb.C30_narrow_empty_panics
#print axioms Librrb.C31_split_at_any_partial
#print axioms Librrb.C31_split_at_partial
#print axioms Librrb.C31_split_at_narrowed
#print axioms Librrb.C31_split_at_ends_panic
#print axioms Librrb.C32_focus_mut_partial
#print axioms Librrb.C32_focus_mut_careful_partial
#print axioms Librrb.C32_focus_mut_exact
#print axioms Librrb.C32_focus_mut_index
#print axioms Librrb.C32_focus_mut_any
#print axioms Librrb.C32_focus_mut_panics
#print axioms Librrb.C32_focus_mut_end_panics
#print axioms Librrb.C33_range
#print axioms Librrb.C33_split_at
#print axioms Librrb.C33_disjoint
#print axioms Librrb.C34_workers
#print axioms Librrb.C34_schedule
#print axioms Librrb.C34_halves
#print axioms Librrb.C34_pieces
#print axioms Librrb.C35_sort_by
#print axioms Librrb.C35_sort
#print axioms Librrb.C36_sort_range
#print axioms Librrb.C36_sort_range_refused
#print axioms Librrb.C36_sort_range_by_key
#print axioms Librrb.C37_dual_sort
#print axioms Librrb.C37_dual_sort_range
#print axioms Librrb.C37_dual_sort_refused
#print axioms Librrb.C38_reverse
#print axioms Librrb.C38_reverse_range
#print axioms Librrb.C38_twice
#print axioms Librrb.C39_equal_range_partial
#print axioms Librrb.C39_equal_range_value
#print axioms Librrb.C39_equal_range_returns
#print axioms Librrb.C39_empty_panics
#print axioms Librrb.C40_in_range_partial
#print axioms Librrb.C40_included_end
#print axioms Librrb.C40_included_wrong
#print axioms Librrb.C40_empty
#print axioms Librrb.C41_for_index
#print axioms Librrb.C41_for_index_in_range_partial
#print axioms Librrb.C41_included_wrong
#print axioms Librrb.C42_between_range_partial
#print axioms Librrb.C42_empty_panics
#print axioms Librrb.C43_eq
#print axioms Librrb.C43_eq_iff
#print axioms Librrb.C43_cmp
#print axioms Librrb.C43_partial_cmp
#print axioms Librrb.C43_hash
#print axioms Librrb.C43_hash_eq
#print axioms Librrb.C44_height
#print axioms Librrb.C44_at_most_ten
#print axioms Librrb.C45_items_partial
#print axioms Librrb.C45_small_partial
#print axioms Librrb.C45_sum_partial
#print axioms Librrb.C45_guarded_partial
#print axioms Librrb.C45_focus_partial
#print axioms Librrb.C45_look_partial
#print axioms Librrb.C45_pass_partial
#print axioms Librrb.C45_focus_stale
#print axioms Librrb.C45_pass_stale
#print axioms Librrb.C45_split_focus
#print axioms Librrb.C45_sort_wrong
#print axioms Librrb.C45_reverse_wrong
#print axioms Librrb.C45_wrong_sum
#print axioms Librrb.C45_pop_fails
#print axioms Librrb.C45_push_fails
#print axioms Librrb.C45_stale
#print axioms Librrb.C45_stale_pop_fails
#print axioms Librrb.C45_append_fails
#print axioms Librrb.C45_insert_fails
#print axioms Librrb.C45_remove_fails
#print axioms Librrb.C45_constant_fails
#print axioms Librrb.C45_split_fails
#print axioms Librrb.C46_any_comparator
#print axioms Librrb.C46_any_comparator_dual
#print axioms Librrb.C46_panics
#print axioms Librrb.C47_concatenation_raises
#print axioms Librrb.C47_height_linear
#print axioms Librrb.C47_not_logarithmic
#print axioms Librrb.C48_memory
#print axioms Librrb.C48_freed
#print axioms Librrb.C49_unshared
#print axioms Librrb.C49_in_place
#print axioms Librrb.C50_nodes
#print axioms Librrb.C50_linear
#print axioms Librrb.C51_kept
#print axioms Librrb.C51_once
#print axioms Librrb.C52_sort_range_left
#print axioms Librrb.C52_sort_range_refused
#print axioms Librrb.C52_sort_range_state
#print axioms Librrb.C52_dual_sort_range_left
#print axioms Librrb.C52_dual_sort_range_state
#print axioms Librrb.C53_equal_range_calls
#print axioms Librrb.C53_for_index_calls
#print axioms Librrb.C53_state
#print axioms Librrb.C53_count
#print axioms Librrb.C54_sort_range_calls
#print axioms Librrb.C54_dual_sort_range_calls
#print axioms Librrb.C54_equal_items
#print axioms Librrb.C54_depth
#print axioms Librrb.C55_push_back_partial
#print axioms Librrb.C55_push_front_partial
#print axioms Librrb.C55_pop_back_partial
#print axioms Librrb.C55_pop_front_partial
#print axioms Librrb.C55_push_full
#print axioms Librrb.C55_pop_short
#print axioms Librrb.C55_pop_merge
#print axioms Librrb.C56_threads
#print axioms Librrb.C56_ends
#print axioms Librrb.C56_no_race
#print axioms Librrb.C56_memory
#print axioms Librrb.C57_steps_partial
#print axioms Librrb.C57_linear_partial
#print axioms Librrb.C57_freeing
#print axioms Librrb.C57_cuts_are_slow
#print axioms Librrb.C57_cuts_unbounded
#print axioms Librrb.C58_quiet
#print axioms Librrb.C58_quiet_slices
#print axioms Librrb.C58_get_mut
#print axioms Librrb.C58_front_back_mut
#print axioms Librrb.C58_split_short_partial
#print axioms Librrb.C58_append_short_partial
#print axioms Librrb.C58_append_low_partial
#print axioms Librrb.C58_split_tall
#print axioms Librrb.C58_remove
#print axioms Librrb.C58_insert
#print axioms Librrb.C58_insert_end
#print axioms Librrb.C58_extract_slice
#print axioms Librrb.C58_extract_empty
#print axioms Librrb.C58_remove_first
#print axioms Librrb.C58_append_one
#print axioms Librrb.C58_insert_first
#print axioms Librrb.C58_append_taller
#print axioms Librrb.C58_append_tall
#print axioms Librrb.C59_no_ub
#print axioms Librrb.C59_quiet
#print axioms Librrb.C59_quiet_reads
#print axioms Librrb.C60_nodes
#print axioms Librrb.C60_dense
#print axioms Librrb.C60_linear
#print axioms Librrb.C60_joins
#print axioms Librrb.C61_collect
#print axioms Librrb.C61_constant
#print axioms Librrb.C61_program
#print axioms Librrb.C61_work
#print axioms Librrb.C62_messages
#print axioms Librrb.C62_no_race
#print axioms Librrb.C62_calls_end
#print axioms Librrb.C62_memory
#print axioms Librrb.C63_programs
#print axioms Librrb.C63_once
#print axioms Librrb.C63_once_slices
#print axioms Librrb.C63_quiet
#print axioms Librrb.C63_forgets
#print axioms Librrb.C64_race
#print axioms Librrb.C64_orderly_partial
#print axioms Librrb.C65_reads
#print axioms Librrb.C65_clone_drop
#print axioms Librrb.C65_whole_slices
#print axioms Librrb.C65_refused_partial
#print axioms Librrb.C65_front_mut_copies
#print axioms Librrb.C65_focus_copies
