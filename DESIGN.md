# Formal model of librrb in Lean 4

## What is here

* `properties.jsonl` – the claims, stated over the public API.
* `lean/Verif/Model/*` – the model: one Lean definition per Rust function, each with a comment that gives file and
  lines in `/repo` and any simplification.
* `lean/Verif/Spec.lean`, `lean/Verif/History.lean`, `lean/Verif/HeapSpec.lean` – the words in which the theorems are
  stated: plain lists, what is observed of a vector, programs of calls and what they mean on lists.
* `lean/Verif/HeapHistory.lean` – the same programs on reference-counted nodes; `lean/Verif/ThreadSpec.lean` – such
  programs in several threads; `lean/Verif/MessageSpec.lean` – threads that send each other vectors.
* `lean/Verif/Proof/*` – helper lemmas.
* `lean/Verif/Props/*` – the property theorems, each with a concrete example beside it.
* `lean/Verif/Axioms.lean` – prints the axioms of every theorem named in the manifest (generated by
  `tools/manifest.py` from `tools/claims.py`, as is `MANIFEST.json`).
* `seeded/LOG.jsonl` – mutation tests of the theorems.

## Trusted base

* Lean's kernel.
* The axioms `propext`, `Classical.choice` and `Quot.sound`, and no others; `lean/Verif/Axioms.lean` prints them for each
  theorem during the build. No axioms of our own, no `sorry`, no `native_decide`, no `bv_decide`. Concrete
  examples and counterexamples are evaluated by the kernel (`decide`, `decide +kernel`).
* The correspondence between the Rust text and the model, function by function as cited in the comments. It was made by
  reading; the code was not run.
* The definitions in `Spec.lean`, `History.lean`, `HeapSpec.lean`, `ThreadSpec.lean` and `MessageSpec.lean`, which say what the
  theorems mean.
* For C56 and C62: that `Arc` makes its counts atomic and orders them as its documentation says. See "Threads" below.

## How the code is modelled

**Failing is a value.** A function that can fail returns `M α = Except Fault α`, where `Fault` is one of

* `panic` – `unwrap` on `None`, a failed `assert!` or `debug_assert!`, an index out of bounds, `unreachable!`;
* `ub` – reading an uninitialised or moved-out slot, or, in the heap model, following a dangling pointer;
* `leak` – overwriting a live `MaybeUninit` slot, which loses its item without dropping it;
* `overflow` – `usize` arithmetic leaving `0 … 2^64 - 1` (a panic in the debug profile);
* `diverge` – a loop used up its budget. Theorems that say `.ok` show that the budget suffices.

So "returns `.ok …`" includes: no panic, no undefined behaviour, no overflow, no endless loop. The profile is debug:
with overflow checks and debug assertions. In the release profile an overflow would wrap; that is not modelled.

**`&mut self`** becomes returning the new value. A returned `&mut` item becomes a function that writes there.

**`usize`** is `Nat`. The `len` of a vector and the arithmetic on indices given by the caller are checked; theorems about
growth carry "the result fits". Sums inside of the tree (size tables) are bounded by `len` and are plain numbers.

**Generic code.** Items are values of any type `α`, their `Clone` is the identity. `Internal` is instantiated with the
nodes of `basic.rs`; the nodes of `annotated_basic.rs` have a model of their own.

### Two models of vectors

1. *Trees* (`Node`, `Vector`, `Focus`, `FocusMut`, `Search`, `Sort`). An entry is the node that it points to, `load_mut` and
   `clone` of an entry are the identity. All claims but C28, C48–C51, C56 and C57 are proved here.
2. *The heap* (`Heap`, `HeapVec`, `HeapFocus`, `HeapFocusMut`, `HeapSort`). An entry is an address, a cell holds a reference count
   and a node, `load_mut` writes in place when the count is one and copies otherwise, dropping the last entry frees the
   node and drops its entries. The raw pointers that a mutable focus keeps into nodes are addresses that are read and written
   without looking at counts.

A function on the heap is a tree of steps (`HM`): reading a node, asking whether a count is one, adding an owner, making a node,
dropping an owner, writing a node. Run without interruption it is a function from heaps to heaps (`HM.run`).

`Proof/HeapSim.lean` and what builds on it shows that each function on the heap simulates the one on trees – same results, same
faults – with exact counts (`World`): count = number of owners, inside and outside of nodes. This is shown with
any steps of other threads in between (`Runs`, `Proof/HeapRuns.lean`; `RunsIn`, `Proof/HeapLend.lean`, with vectors lent), as long as these keep what the call owns
(`Kept`); and the call itself takes only steps that keep what others own (`HM.Allowed`). C28 and C48–C51 follow for whole
programs, C56 and C62 for programs in threads.

C57 and C61 count the steps of `HM` (`Model/Steps.lean`). Not counted is what a call does with data it holds already: the slots of a
node (at most 64), its size table, the list of borrowed nodes of a mutable focus.

### Threads

`Model/Threads.lean`: threads take steps of `HM` in any order, on one heap. What is trusted or left out:

* Steps are atomic and seen by all threads in one order. The memory orderings of `Arc` are not modelled. That no thread writes
  to a node, or frees it, while another one is about to touch it is proved for this order (`C56_no_race`); with the orderings
  that `Arc` promises, programs without such races cannot tell the difference.
* Reading a node is one step; in the code a borrowed node is read bit by bit. The proofs show that a node that a thread can reach is
  not written by others meanwhile (`Kept`).
* `Arc::make_mut` is the question for the count, then either a write or a copy and a drop. There are no weak pointers in the code. The
  separate `Arc` of a size table is not modelled (size tables are values).
* A thread that panics stops; what unwinding would drop is not dropped. So C56 and C62 say nothing about memory after a panic.
* Threads start with vectors that are moved to them, and hand them back at the end. All threads of a round may also have the same
  vectors lent (`&Vector`, as in `std::thread::scope`); `Call.Borrows` says which calls are possible through such a reference, in
  place of the borrow checker.
* Threads that run may send vectors to each other (C62): a channel keeps the order of what is sent to it, any thread may send to
  and receive from any channel, and to receive from an empty channel is to wait. What a thread does next is a function of all
  answers it has got, so programs with branches and loops are covered. The channel itself is not code of the library; sending
  moves a vector and leaves its nodes alone.
* Counts of `Rc` are not atomic: for them a change is two steps (`Model/RcThreads.lean`, C64). Every order of steps has a meaning there, while in the code
  such a race is undefined behaviour already.
* `&mut` of parts of one vector in several threads (pieces of a `FocusMut`) is modelled on trees (C34), not on the heap.

### What is modelled, file by file

| File | Modelled | Not modelled |
|------|----------|--------------|
| `circular.rs` | all of `CircularBuffer` on its concrete ring (`front`, `len`, 64 slots), its iterators, `Clone`, `Drop`; `BorrowBufferMut` as used by mutable foci | `Debug`, `Index` sugar, `Send`/`Sync` |
| `size_table.rs` | all of it on the concrete buffer of cumulative sizes | `debug_check` helpers that only assert |
| `node_traits.rs` | `NodeRc`, `NodeMut`, `Entry` (heap model) | the traits themselves; associated `Context`/`Borrowed` types become concrete |
| `node_impls/basic.rs` | leaves, internal nodes, borrowed nodes, `SharedPointerEntry` | the run-time borrow checks `DerefPtr`/`DerefMutPtr` exist only as types |
| `node_impls/annotated_basic.rs` | leaf and internal nodes, the guards, `get_sum`, the vector code over them (push, pop, get, get_mut, get_mut_guarded, append, split_off, slicing, insert, remove, iteration, collecting, constant_vec_of_length); mutable foci and `iter_mut` with the refreshing of sums when borrowed nodes are dropped (`Model/AnnotatedFocus.lean`); sorting, dual sorting and reversing, with the order in which their foci are dropped (`Model/AnnotatedSort.lean`) | `Debug`; reference counts and sharing, for which the heap model has the nodes of `basic.rs` |
| `vector.rs` | every public method, the iterators and the trait implementations (`Eq`, `Ord`, `Hash`, `FromIterator`, `Index`, `Clone`) | `Debug`, macros `vector!`, tests |
| `focus.rs` | `PartialFocus`, `Focus`, `InnerFocusMut`, `FocusMut` | the commented-out functions; `unsafe impl Send/Sync` only as what C64 takes as possible |
| `sort.rs` | `do_single_sort`, `do_dual_sort` with any stream of random draws | the generator (`rand_xorshift`) |

Further simplifications, also said at the definitions:

* The two arms `Leaves`/`Internals` of `ChildList` carry the same code and are merged; the dynamic checks (`leaf()`,
  `internal()`) stay.
* `SizeTable`s are values also on the heap (the code keeps them behind a pointer of their own, reads them with `deref` and writes
  them with `make_mut` only).
* On the heap an address is not used again after its node is freed; a body borrowed through `load_mut` is taken out of the cell until
  it is given back, so nothing can be read there meanwhile.
* In the tree model, the items of a mutable focus are *places*: a returned reference is the place of the item, and reading or
  writing it is reading or writing the vector there (`RVec.cells`, `derefSlot`). C34 is about any interleaving of
  workers that own disjoint foci, and of splitting and using pieces (`TOp`).
* Comparators and functions given by the caller are total functions of the items, without side effects, except in C46, where
  the comparator may answer anything, and in C52, where it also has a state and may panic (`Callback`). For C52 the
  sort is modelled a second time, in a monad whose state outlives a failure (`U`, `Model/SortUnwind.lean`); the
  theorems `sortRangeBy_follows` and `dualSortRangeBy_follows` tie it to the first. In C53 the comparison given to a
  search has a state and may panic as well (`Probe`, `Model/SearchAsk.lean`). In C55 cloning an item may panic while pushing or popping (`Copier`, `CM`,
  `Model/CloneUnwind.lean`), in C58 while cutting, joining or borrowing (`Model/CloneUnwindCut.lean`): each `load_mut` of a leaf says which vector is left behind if it unwinds there; which leaves have
  another owner is not tracked but quantified over. In C59 programs go on with what is left (`Model/Interrupted.lean`). In C63 dropping an item may panic (`Model/DropUnwind.lean`), on the heap.
  As an interrupted `append` leaves the right spine upside down, `level + 1` steps of recursion need not be enough there: all recursions and loops
  are followed for any number `more` of further steps (`Copier.more`). Elsewhere, what a vector looks like after a panic is not stated.
* `sort` works on an interface `SortFocus` (read, swap, split) which both kinds of foci implement.
* Allocation never fails; reference counts do not overflow.

### Words of the specification

* `Built v`: `v` is the result of calls of the API. `Shows v l`: `len` and `get` of `v` tell the sequence `l`.
* `Safe r`: the result is not `ub` and not `leak`.
* `Act`, `Call`, `runProgram`: programs over any number of vectors. `Call.Means` says on lists what a call may answer; it is
  a relation because an unstable sort may leave several orders. `Fits`: the arguments are possible `usize`s.
* `runHeap`, `HShows`, `Reached`, `references`: the same on the heap.

## What was found

The claims were written down before the proofs. Where the code does otherwise, the failure is proved with a witness, and what
remains true is proved as `_partial`.

| | Where | What happens | Theorems |
|--|------|--------------|----------|
| B1 | `focus.rs:918-1063` `InnerFocusMut::get` | after an index out of range the range of the first or last leaf is stale, and the next access can panic; exactly when is proved | `C32_focus_mut_panics`, `C32_focus_mut_end_panics`, `C32_focus_mut_exact` |
| B2 | `focus.rs:166-195` `Focus::narrowed_tree` | an empty range can give a focus that panics | `C30_narrow_empty_panics` |
| B3 | `focus.rs:363-372` `Focus::split_at` | takes the position relative to the vector, not to the focus; panics at the end | `C31_split_at_narrowed`, `C31_split_at_ends_panic` |
| B4 | `focus.rs:326-344` `Focus::narrow` | a narrowed focus can be widened again | `C30_narrow_widens` |
| B5 | `vector.rs:1439-1634` `equal_range*` | an inclusive end `x` is taken as `x - 1` | `C40_included_wrong`, `C41_included_wrong` |
| B6 | `vector.rs:1576-1634` | empty ranges: wrong answer, panic, or endless loop; also the empty vector | `C39_empty_panics`, `C40_empty`, `C42_empty_panics` |
| B7 | `circular.rs:734-749` `IntoIter::next_back` | yields the first item; twice is undefined behaviour; dropping a used iterator drops moved-out items (private, used by tests only) | `C22_into_iter_next_back` |
| B8 | `annotated_basic.rs` | sums are wrong after children move between nodes (`share_children_with` counts the children that stay), so later pushes, pops, splits and joins panic; joining two small vectors, inserting or removing in the middle and `constant_vec_of_length` from two on always panic; `get_mut` leaves sums stale and a later pop may panic | `C45_wrong_sum`, `C45_pop_fails`, `C45_push_fails`, `C45_append_fails`, `C45_insert_fails`, `C45_remove_fails`, `C45_constant_fails`, `C45_split_fails`, `C45_stale`, `C45_stale_pop_fails` |
| B9 | `focus.rs:400-413` | `FocusMut` is `Send` whatever the pointer kind, but using it changes counts of nodes that clones share. With `Rc` two threads can lose a change of a count; a leaf is freed that a vector still has: use after free in safe code | `C64_race` |
| B10 | `vector.rs:452-462` `constant_vec_of_length` | overflows for n ≥ 2^63 | `C27_constant_overflow` |
| B11 | `sort.rs:133-228` | an inconsistent comparator can make the sort panic or loop; it loses nothing | `C46_panics` |
| B12 | `vector.rs:182-185`, `:229-230` | the documented logarithmic height after concatenations does not hold; it is linear in their number | `C47_not_logarithmic` |
| B13 | `focus.rs:262-272` | an index ≥ 2^64 − start on a narrowed focus overflows | `C29_focus_overflow` |
| B14 | `sort.rs:105-108`, `:285-288` | on n equal items the sort makes n(n−1)/2 comparisons and n recursive calls inside of one another for every random stream, since equal items are found but not set aside when the pivot is the minimum; long runs of equal items can exhaust the stack | `C54_equal_items`, `C54_depth` |
| B15 | `vector.rs:729-730`, `:550-554`, `:701-704` | not exception safe: when an item's `Clone` panics while a leaf shared with a clone of the vector is copied, `pop_side` has already counted `len` down (items are hidden, later pops panic), and `complete_leaf` and `fixup_spine_tops` have already taken the nodes out of the vector (all items are lost, `len` stays) | `C55_pop_short`, `C55_push_full`, `C55_pop_merge` |
| B16 | `annotated_basic.rs` (`Drop` of the borrowed nodes, `:131-144`, `:334-363`), `focus.rs:416-430`, `:734-806` | a mutable focus of an annotated vector refreshes only the sum of each borrowed node when that node is dropped, and the whole roots are dropped before the path below them; dropped inside the tree it leaves the sums above stale, an early end of `iter_mut` likewise; splitting refreshes the sum of a node from half of its children, so two splits without any write make the sums wrong; `sort` and `reverse_range` split foci, so that sorting a range of one item makes them wrong too | `C45_focus_stale`, `C45_pass_stale`, `C45_split_focus`, `C45_sort_wrong`, `C45_reverse_wrong` |
| B17 | `basic.rs:860-861`, `:888-915` | `split_at_position` calls `debug_check_invariants` on both halves at every level; only the assertions in it depend on the build, the walk over all nodes below does not (unless the optimiser sees that it has no effect), so `split_off`, the slices, `insert` and `remove` take time linear in the number of items where the documentation says O(MH) | `C57_cuts_are_slow`, `C57_cuts_unbounded` |
| B18 | `vector.rs:1237-1269`, `:2044-2048`, `:1370-1374`, `:966`, `:984`, `:1035` | not exception safe either: `split_off` and the slices take nodes out of the vector before they clone a shared leaf, so when an item's `Clone` panics `len` is as before but reading some item panics, or the second part is lost; so do `remove`, `insert` and `extract_slice`, and `remove(0)` and `insert(0, _)` leave an empty vector; `append` loses the items of a vector of one item or of one leaf, or leaves a left and a right spine of different lengths | `C58_split_tall`, `C58_remove`, `C58_insert`, `C58_extract_slice`, `C58_remove_first`, `C58_insert_first`, `C58_append_one`, `C58_append_taller`, `C58_append_tall` |
| B19 | `circular.rs:546-607` | if the destructor of an item panics, the items in later slots of the leaf are never dropped, nor are the other children of the nodes above it (`Vec` of the standard library drops the others); this leaks but is safe | `C63_forgets` |
| B20 | `vector.rs:834-837`, `:868-871` | `front_mut` and `back_mut` take the leaf by `load_mut` before they look whether there is an item; of an empty vector with a clone they return `None` and copy the leaf (a leaf of 64 slots is made for nothing; `get_mut` and the pops look first) | `C65_front_mut_copies` |
| B21 | `vector.rs:2099-2113` | `focus_mut` takes the root and all nodes of both spines by `load_mut` at once; of a vector with a clone it copies them all, two leaves with their items included, even if no item is touched (so do `iter_mut`, and `reverse_range` of an empty range) | `C65_focus_copies` |

Also seen: the call of `empty_leaf` in the repair at the end of `split_off` has no effect (a mutant without it satisfies all
theorems).

## Properties and theorems

| Id | About | How proved |
|----|-------|-----------|
| C01–C04 | push, pop | invariant `Inv` preserved, sequence = old ++ [x] / x :: old |
| C05–C08 | len, get, get_mut, front, back | `Inv` contains the length; induction over levels for the size tables |
| C09 C10 C47 | append, prepend | loop invariants per level; lower bound of the height |
| C11–C16 | split_off, slices, extract, insert, remove | loop invariants; composition |
| C17 C18 | programs of calls | induction over programs, refinement to lists |
| C19 | no undefined behaviour, no lost item | the results of all calls are `Safe`, failing ones included |
| C20–C22 | ring buffers | refinement to lists |
| C23–C26 | iterators, collecting | refinement, any interleaving of both ends |
| C27 | constant vectors | binary method, loop invariant |
| C28 C48 | sharing and memory | simulation with exact counts; no garbage because chains of nodes are finite |
| C51 | items in memory | taking the owned entries apart one by one, down to an empty heap |
| C49 | writing in place | counts stay one, step by step: a relation between heaps that every step keeps (`Along`) |
| C50 | number of nodes made | cost rules over `HM` (`Cost`): each step makes at most so many nodes and keeps levels bounded in a zone that holds the nodes of the variables and all later ones |
| C57 | number of steps | the same rules for the steps of `HM` (`Steps`, on top of `Cost`); freeing by a potential (entries in the heap); the lower bound for cuts by counting the nodes that the check of the invariants reads |
| C61 | steps without concatenations | the bounds of C57 with the height that C44 gives; a push at a time for collecting; sums over programs |
| C62 | threads with messages | the threads and the messages together are `Tasks` of C56: a call that starts is a new task, a message is a task that has ended |
| C63 | items that panic when they are dropped | what a panic leaves behind is owned by nobody but stays in the invariant of the heap (`Littered`), so all calls run beside it as beside the vectors of other threads |
| C64 | mutable foci in other threads | counts that are read and written in two steps (`Model/RcThreads.lean`); orders of steps in which nobody comes in between are those of C56 |
| C65 | calls that leave the memory as it is | programs that only read (`Still`); dropping takes back what cloning adds to the counts |
| C56 | threads | an invariant of all threads: each owns its part of the counts and runs to its end whatever the others do (`Tasks`) |
| C29–C31 | shared foci | focus invariant for any sequence of accesses |
| C32–C34 | mutable foci | a focus is a contiguous list of places; the leaves among its nodes are the two ends, which gives the exact scripts that panic; disjointness; schedules |
| C35–C38 C46 | sorting, reversing | permutation and sortedness for any random stream |
| C52 | sorting, interrupted | every step keeps `KeepsWithin` also where it fails; simulation for comparators that do not panic |
| C54 | calls of the comparator in sorts | `Steady` counts the questions; a recurrence over the parts of the partition; `Flat` for equal items |
| C59 | going on after such a panic | all rings are in order, whatever else is wrong with the vector (`Node.Sound`, `Tidy`); every call keeps this |
| C60 | nodes in memory | without concatenations all nodes but those at the edges are full (`Snug`, as in C44), so their number follows from the number of items; any node of a well-formed tree has an item below it |
| C55 C58 | panic while cloning items | each step does what the plain model does or leaves a vector with the stated items (`Tracks`); counterexamples |
| C39–C42 | searches | loop invariants |
| C53 | calls of the comparison in searches | `Asks`: the list of items on which it was called, halving of the range |
| C43 | Eq, Ord, Hash | refinement to lists |
| C44 | height after pushes | lower bound of the size per level |
| C45 | annotated vectors | erasing the sums relates annotated programs to plain ones; sums where caches are right; counterexamples |

Status and theorem names are in `MANIFEST.json`.
