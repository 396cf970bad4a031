# Verification of mathic: design

Source under study: `/repo` (broune/mathic, C++ templates). The properties are in
`properties.jsonl`, the claims in `MANIFEST.json`, the Lean 4 model and the
theorems in `lean/Verif/`. This file says what is modelled, how each property is
proved, what the proofs rest on, and where the code does not do what its
interface promises.

## 1. How the code is modelled

* One Lean module per header. Each C++ function becomes one Lean function, with
  a comment that cites the file and lines. Loops become structural or
  well-founded recursion. Nothing is `partial`, nothing is `unsafe`.
* Entry types, monomials and exponents are type parameters. The configuration
  (the user's `compare`, `deduplicate`, `divides`, `isLessThan`, `getExponent`,
  hash, ...) is a structure of functions. What the documentation demands of it
  is a separate `Prop` structure (for example `StrictWeak lt`), and it is a
  hypothesis of the theorems that need it.
* Undefined behaviour is a distinct outcome. Array accesses are checked in the
  model: an access out of bounds, a pop of an empty queue, a null dereference
  and so on give `none` (or the constructor `ub` where exceptions have to be told apart
  from it). Theorems of the form `∃ s', op s = some s' ∧ ...` so include the
  claim that no such access happens.
* Histories are lists of operations run from the constructor's state. Invariants
  are proved by induction over the list.
* "Contents" claims are about multisets (`List.Perm`, `Multiset`). The deduplicating
  queues are specified by additive weights: for every commutative monoid `M` and
  `w : Entry → M` for which `deduplicate` adds weights of equal entries, the sum of
  the weights held is the sum pushed minus the sum popped. With `M = Multiset Entry` and no deduplication
  this is the multiset statement, with `M = Class → ℕ` it is a statement on each class.

## 2. Trusted base

* The Lean 4.33.0 kernel and the statements (definitions + specifications) in `lean/Verif`.
* Axioms: only `propext`, `Classical.choice`, `Quot.sound` (checked by `#print axioms`).
* The correspondence of model and C++ code is by reading, there is no extraction.
* Library functions assumed to meet the C++ standard: `std::vector`, `std::list`,
  `std::multiset`, `std::sort`, `std::stable_sort`, `std::partition`, `std::upper_bound`,
  `std::swap`, `std::string`, streams; memtailor's `Arena`, `BufferPool` (allocation only).
  They are parameters with a stated contract where more than one result is allowed
  (`std::sort`, `std::partition`), otherwise functions.
* Not modelled unless said so below: memory reclamation and alignment, `size_t`
  overflow (sizes are unbounded naturals), `getMemoryUse`, `getName`, `print`
  debugging aids, debug-only `isValid`/`MATHIC_ASSERT` checks (release build semantics), threads (the
  library has none).

## 3. Plan per property

| id | model | method |
|----|-------|--------|
| C01,C02 | `Heap.lean`: array heap over a list of cells with 1-based nodes, hole moves as in the code | heap invariant + weight sum by induction over hole position and over histories |
| C03 | `ComTree.lean`: plain and byte-scaled nodes as naturals with shifts/masks | bit-level lemmas on `Nat` |
| C04,C05 | `ComTree.lean`: allocated array with capacity, last leaf, copy loops | induction; C05: the code violates it, witness |
| C06,C07 | `TourTree.lean`: players and tree of player indices | tournament invariant, histories; C07: comparison oracle variation |
| C08 | all queues | corollary of refinements: drain is a sorted permutation |
| C09 | `StlSet.lean`: ordered list as multiset contract | invariant |
| C10-C15 | `Geobucket.lean` (both `Geobucket` and `GeoFront`), buckets as sequences; the memory block that `addBucket` cuts up is in C74 | bucket invariant (sorted, within capacity), front invariant, cascade induction; C14 and C15 violated for trackFront: witnesses |
| C16-C22, C60, C61 | `PairQueue.lean`: columns as objects in memory, the tournament tree over pointers to them (`TourTreeX.lean`, comparisons may throw or be undefined), retirement bits, throw points, a log of pair data | invariant over histories; C19, C21, C61 violated: witnesses |
| C23-C26, C59 | `DivMask.lean`: masks as `BitVec 32`, calculators as lists of tests | bitwise lemmas; C26 violated for one variable: witness; C59 (rebuild) violated for exponents near INT_MAX: witness |
| C27-C33 | `DivList.lean` | list induction; C31 violated in sorted lists: witness |
| C34-C41, C63-C65 | `KDEntryArray.lean`, `KDTree.lean` (both `BinaryKDTree` and `PackedKDTree`: a packed node with n children is n interior nodes in a row; not modelled: the layout of a packed node in its memory block) | tree invariant (each entry on its side of all splits, masks are lower bounds, leaves within capacity), refinement to multiset; C39, C40, C63, C64, C65 violated: witnesses |
| C42-C44, C62 | `HashTable.lean` | chain invariant, refinement to association list; size as a function of the number of keys; C44, C62 violated: witnesses |
| C45 | `BitTriangle.lean` | direct |
| C46,C47 | `Text.lean` (decimal output), `ColumnPrinter.lean`: columns with their texts, `print` line by line with the reading positions of the streams | list induction, refinement to a table of cells padded to the column widths |
| C48,C49,C66,C67 | `F64.lean` (`double` as rationals rounded to nearest even with 53 bits; no overflow, subnormals, NaN), `Ratio.lean` | error bounds and exactness of rounding; C48 violated for large numbers, C66 for large numbers: witnesses |
| C50,C51 | `NameFactory.lean`: the map as a list of names with products, `Res` with exceptions | the names with a prefix are the sorted filtered list; case analysis on exact and prefix matches. `messages_form` gives the form of messages |
| C52,C54,C68 | `Cli.lean`: the three kinds of parameters, `in >> n` as the standard has it (numbers with a sign: arbitrary) | digit strings, case analysis |
| C53 | `Cli.lean`: `CliParser::parse` over arbitrary actions and parameters (interface `Iface` with a law: names do not change) | a layout relation on token lists with unique existence; the loop refines a run over the groups of the layout |
| C55,C56 | `Display.lean`: the `Printer`, with the message as what is left of it; not modelled: `displayException` (the handler for an exception while printing) | line relation `Shows` with unique existence, greedy filling; C55 violated for NUL and bytes from 128 on: witnesses |
| C70,C71 | `Help.lean`: `HelpAction` over the models of `CliParser`, `NameFactory`, `ColumnPrinter` and `display`; the texts that actions and parameters give are arbitrary functions; the pointer `_parser` is a flag | the table from C47, line breaking from C55, sorted lists are unique; C71 violated: witness |
| C72 | `RebuildSpec.lean`: bookkeeping of rebuilds (entries at the last rebuild, changes since, limit) that goes by the calls and the entries before and after each call, not by the counter of the code; the masks are those of the calculator for the entries at the last rebuild in some order. `size * ratio` is an arbitrary function of the size. By induction over histories: counter + changes since = limit. Refuted for `removeElement` |
| C73 | `Ratio.lean` over `F64.lean`; `double` values are rationals that rounding leaves alone | error bounds for each rounding; the constant 0.000000001 computed exactly (no double lies between it and 10^-9); refuted for negative ratios |
| C74 | `GeoMem.lean`: all of `Geobucket` once more with the vector `_mem`, buffers as positions in it, every entry written one by one at its address; assignment of a new memory block keeps the entries of the old until they are copied; the front is that of `Geobucket.lean` | the areas of buckets and temporary buffers as a renaming-invariant layout; each function simulates the function on sequences; `addBucket` packs the areas in a row |
| C75 | `HeapTrace.lean`, `TourTreeTrace.lean`: the functions of `Heap.lean` and `TourTree.lean` once more, each with the list of pairs compared on the way | `compared_enough`: a configuration that answers these comparisons alike makes the call do the same, so that no comparison is left out; lengths by induction along the path, merges paid for by the entries that they remove |
| C76 | `KDMem.lean`: `KDEntryArray`, `BinaryKDTree`, `PackedKDTree`, `KDTree` once more with nodes at addresses, pointers that may be null or unset, raw memory for entries with construct/destruct/read/assign, the arena as a heap that is given back at once without destructors; loops without a bound on their rounds are partial (`none` if they do not end). Not modelled: the layout of a node in its block, alignment, reuse of addresses (so any use after the memory is given back is noticed), exceptions from copying entries or from allocation | `Layout`: what it takes that a tree with addresses lies in memory, shown for both kinds of trees function by function; `run_sim`: whatever a call does on trees it does in memory, by induction over histories; refuted with witnesses for throwing outputs and for `removeElement` with a cache |
| C77 | `PQSim.lean`: `Item`, `Model` on elements and on spans over any queue, with the list `_pending`; on spans the queue tells the arguments of its calls of `deduplicate` (`HeapLog.lean`: the functions of `Heap` once more with these calls), since that of `Item` adds to `_pending`. Loops without an obvious bound are `partial_fixpoint`, so not returning is undefined. `PQSimSpec.lean`: a finite set of values. | `HeapLogProofs.lean`: the entries of a heap change by these calls alone (`Merges`), which gives C01 for weights in every commutative monoid; `GeoCountProofs.lean`; `PQSimProofs.lean`: pending items never exceed the largest item in the queue, each round takes one value away, the loop over `_pending` ends as each merge drops a value. Elements that are merged are counted by sets under union, a monoid without cancellation. |
| C78 | `Simulator.lean`: `SimBuilder` with its multiset as sorted list, the three ways to make a simulation with `rand()` as an arbitrary sequence (loops by `partial_fixpoint`, so that not returning is `none` and undefined behaviour is a value of its own), `run` on any queue; not modelled: clock, printing, `setupEvents` (never called), counters that overflow | `SimulatorSpec.lean` says what fair is; invariant: replaying the events on a set of values gives the values expected and the set of live values. Violated by `randomSpans` (F44) and for small parameters (F45) |
| C79 | `DivSim.lean`: `makeStandard` with `rand()` as an arbitrary sequence, the events with their types and counts, `run` over any finder, the runs of `main`; the configurations of `DivListModel` and `KDTreeModel` over the models of `DivList` and `KDTree` (insertion in `Minimize.lean`). Release build; not modelled: events of type State (made nowhere), the count of exponent queries, time, names, printing | `DivSimSpec.lean`: a correct finder answers as a multiset of monomials; the run is a function of the answers, and an event that has its answer passes again with the same one; finders are correct by C27-C33, C34-C41 and C58. Violated: F46, F47, F48 |
| C80 | `HashThrow.lean`: the calls of `HashTable.lean` once more, each with at most one place where it throws, and the state that this leaves; the exceptions are caught by the client | `HashThrowSpec.lean`: all entries ever made, with a mark for those that are found, and what each call may do; an invariant that says nothing about the count of nodes, and in which chains may miss nodes. Violated: F49, F50 |
| C81 | `HeapThrow.lean`: the functions of `Heap.lean` for a comparison that may depend on the number of comparisons made (`stepX_pure`: with a fixed one it is `Heap.lean`); `TourTreeThrow.lean`: `implAt`, a tournament tree with a configuration for each call | the specification of C01 for the order `never`, in which nothing is less: what remains is a bag. The proofs for contents do without the order of the heap; for the tournament tree the shape of the tree suffices |
| C82 | as C81, with comparisons (and, in heaps, deduplications) that throw, and the state that this leaves. Exceptions of copying entries and of allocations are not modelled. In tournament trees a comparison that throws does so each time within one call | `QueueThrowSpec.lean`: what a call that throws does to contents. A push of a tournament tree that throws leaves what it leaves if the comparison answers no, so its shape is kept. Violated: F51, F52 |
| C83 | `DivListAlias.lean`, `KDMemAlias.lean`: `removeMultiples` with the monomial given as a position or as a pointer into memory, read again each time that the code reads it; undefined if there is no entry any more. An entry that has been moved within an array is taken to be copied (C++03, as the rest of the model) | `DivListAliasSpec.lean`: what a call with a copy does. Arrays: up to the position of the entry nothing is written to it; without divisibility between entries what is written to it later divides nothing either. Binary trees: the leaf of the entry is the last that is looked at (`stack_expand`), so that only that leaf matters. Violated: F53, F54 |
| C84 | `Assert.lean`: the outcome of a debug build: ends, an assertion fails, undefined. `QueueAssert.lean`: the functions of `ComTree`, `Heap` and `TourTree` with all their assertions, slow ones as well, and `isValid` as the loops that it is. Simplified: `Heap::isValid` does not call `ComTree::isValid`, as the heap is modelled on a list; that part is proved for `ComTree` alone | Refinement of the release models: the debug run of a history is the release run. For `TourTree` the new part is that a player has not won both children of a node (`children_ne`, from the path to its leaf), and that the last leaf belongs to the last player |
| C85 | `GeoAssert.lean`: the functions of `Geobucket` and `GeoFront` with their assertions, `isValid` and `debugIsValid` as the loops that they are, `std::equal` with its undefined reads. Simplified: assertions within members of `Bucket` are the domains of the release model; those about pointers that the model does not have are left out (listed in the head of the file). `GeoAssertSpec.lean`: the calls that a debug build allows | Refinement of the release model: from the invariant of `GeobucketProofs.lean` each debug function ends as its release counterpart. For `clear` and the empty range the failing assertion is found in every reachable state |
| C86 | `KDAssert.lean`: the functions of the KD trees with their assertions, `debugIsValid` of arrays, nodes and trees with the masks. Simplified: the value that `getRebuildRatio()` returns is the flag `pos` (positive or not); assertions about pointers between nodes, which the model does not have, are left out; entries are checked against the splits above them as in `debugIsValid` | Refinement of the release model: `InvD` adds to the invariant of the release build that each mask of a split is below the masks of its children (`Node.Chain`), which insertion, removal and construction keep, and that the entries are at most `size()`. `loop_sim` carries the searches over |
| C87 | `GeoTrace.lean`: every function of `Geobucket.lean` written again so that it also lists the pairs it hands to `compare`, in order (`step_eq`: the result is that of the model of C10 to C15). Specification: `GeoCompareSpec.lean`, the charge of each call as a number | `compared_enough`: a configuration that answers the listed comparisons alike makes the call do the same, so none is left out. Amortization with the potential that gives each entry `geoBase + 1` for each bucket above its own (`pot`): a merge into a bucket costs at most the entries moved up plus those met there, of which there are at most `geoBase` times as many as moved (`Geo`); `Wide` bounds the number of buckets by the entries pushed |
| C88 | `PairAssert.lean`: every function of `PairQueue.lean` with its assertions and the code within `#ifdef MATHIC_DEBUG`, three outcomes (ends, assertion fails, undefined), with `TourTree::isValid` over comparisons that may throw. Specification: `PairAssertSpec.lean`, histories of calls of the debug build | from the invariant of C16 to C22: `isValidX_ok` transfers `isValid_ok` of C84, then function by function; `histD_hist` by induction over the history |
| C89 | as C88 | `checkOrder_quiet`: if the check passes, neighbours are in order, hence all by negative transitivity. Refuted for retired rows and for indices retired twice |
| C90 | `checkOrder` of `PairAssert.lean` keeps a log of the constructions and destructions of pair data | counted by induction on the rows; refuted with two witnesses |
| C91 | `HashAssert.lean`: the calls of `HashThrow.lean` with their assertions, three outcomes. Specification: `HashAssertSpec.lean` (`Spoils`: the call threw while it made an entry or while the table grew) | `computeNodeCount_links`: the count of the chains is the number of entries that are found; the difference to `mNodeCount` grows exactly in calls that spoil it (`stepT_count`, `runT_count` by induction over the history). Refuted for histories with such a call, in general (`hashTable_debug_spoiled`) and with witnesses |
| C92 | `DivListAssert.lean`: the functions of `DivList` with their assertions. Simplified: the value of `getRebuildRatio()` is the flag `ratioPos` | Each function is the release function if the ratio is positive (`runD_eq`); the helper returns as many removals as the size goes down (`removeMultiplesHelperD_eq`, from loops over the list) |
| C93 | `NameAssert.lean`: registrations with the assertion and the factory functions that it calls, search by prefix with its assertion | Induction over the registrations. Refuted for a factory function that returns a null pointer |
| C94 | `TextAssert.lean`: `BitTriangle` and `display` with their assertions | `BitTriangle`: column `c` has `c` bits (`Shape`), so the assertions are the bounds of the vectors. `display`: refinement of the release loops; the line size is zero at the start of each line |
| C95 | `TextAssert.lean`: `ColumnPrinter` with its assertions, except that of line 193, which compares constants. Specification: `TextAssertSpec.lean` (`Op.Tame`) | Refinement of the release model; what is written is made of characters and pairs of NUL and padding (`Tok`). Refuted for padding of one column with newlines |
| C96 | `QueueVisit.lean`: the loops of `forAll` with their iterators; nodes of the heap are 64 bit numbers. Visitors are functions of what they have been shown. Specification: `QueueVisitSpec.lean` (`Shown`, `Edited`, `KeepsOrder`) | Each loop is the visit of a list (`walk`), by induction over a bound on the rounds that any large enough number meets; `Shown` has one solution (`shown_unique`). An edit that keeps the order keeps the invariant of the tournament (`inv_edit`) |
| C97 | `QueueSpace.lean`: the heap with the capacity of its tree and the entries copied; `TourTree.lean` and `GeoMem.lean` have their memory already. Specification: `QueueSpaceSpec.lean` (`peak` with the sizes reported, `LeastDoubling`) | Invariant over histories in which ranges are pushed one by one (`after_expand`): the capacity is the least doubling of the peak so far (`step_holds`, `tour_step_holds`). Geobucket: a geometric sum of the areas of C74, and the bound of C87 on the number of buckets |
| C98 | `DivAsk.lean`: the questions of each query with the places of the entries, for lists, leaves, trees and the cache. Specification: `DivAskSpec.lean` (`withDivides`, `Once`, `hits`, `Heeds`), `Pass` | A sublist of the list with positions (`scan_sublist`, `visit_sublist`); for trees no path is visited twice (`visited_nodup`, `foldLog_nodup`). Completeness: a search that keeps a list tells what a search with other answers does (`loop_log`). Each question matters, by leaves (`leafRange`) and folds over them (`fold_divisor_hit`, `fold_visit_hit`); no questions after the end: `fold_heeds` |
| C99 | `Names.lean`: `getName` of all data structures and of the models of the simulators, with the text of the rebuild ratio as a parameter without a slash | A number ends at the first character that is no digit (`span_eq`); flags by going through all combinations; KDTree violates it without masks: witness (F65) |
| C100 | `Print.lean`: `print` of the four queues and of `ComTree`, with what is written for an entry or a pointer as a function. Specification: `PrintSpec.lean` (`table`, `depth`, `glimpse`, `Alike`, `Legible`, `Balanced`) | Induction over the loop in blocks between powers of two (`treeLoop_rows`); reading back with `span_eq` of C99; braces by counting. Violated, see F67–F69 |
| C101 | `DivThrow.lean`: `removeMultiples` with places at which `push_back` of the output and `divides` throw; copying of entries does not throw. Specification: `DivThrowSpec.lean` (`StepX`, `TraceX`) | Where the loops stop (`Stops`) and what is in the list then (`compactX_spec`, `removeListX_spec`), by induction; histories by the invariant of C01. Violated for arrays, see F70 |
| C102 | `Simulator.lean` of C78, queues are arbitrary. Specification: `SimVerdictSpec.lean` (`calls`, `AsSet`, `Telling`) | Induction over the events (`runEvents_done`), with the invariant of builders of C78; the first call at which a queue fails is unique (`first_unique`). Violated for `randomSpans`, see C78, and F71 |
| C103 | `RebuildThrow.lean`: the state that an exception in a rebuild leaves, by the place of the exception. Specification: `RebuildThrowSpec.lean` (`Sound`, `Blind`) with `Step` and `Trace` of C27 | The contents do not depend on masks (`rebuildThrew_contents`); searches and removals ask `divides` of the configuration before they say yes, in any state (`findDivisor_sound`, `removeMultiples_sound`); a rebuild establishes the invariant of C27 from sorted contents alone (`inv_of_rebuild`). Violated, see F72. Not expressed: exceptions while entries are copied, and while an insertion of a range into a list that is not empty is halfway |
| C104 | `GeoThrow.lean`: the state that an exception in the search of `push` leaves, and histories with such pushes. Specification: `GeoThrowSpec.lean` (`returned`, `values`, `pending`) with `PQTraceBy` of C10 | Simulation: two states with the same buckets and the same front, and numbers of entries that differ by at most `k`, are taken by each call to such states (`step_like`), since no call looks at the number; by induction on the history (`runX_like`) and C10. That the exception is at a comparison which `push` makes is shown with the trace of C87 (`pushT_search`). Violated, see F73. Not expressed: exceptions in merges (`insert` when the first bucket is full) and in the front |
| C105 | `StlSet.lean` as for C09. Specification: `StlSetSpec.lean` (`equivalent`, `popped`) | An insertion into a sorted list appends the new entry to the entries equivalent to it and leaves other classes alone (`insert_filter`); by induction on the history (`run_filter`). The order in `std::multiset` is that of the C++11 standard; before that the standard left it open |
| C57,C69 | `Timer.lean`, with the clock as an argument and `double` as in `F64.lean` | arithmetic, reading back; error bounds; C69 violated for halves: witness |
| C58 | `Minimize.lean`: `DivListModel::insert`, `KDTreeModel::insert` of src/divsim with `minimizeOnInsert`, on top of `DivList.lean` and `KDTree.lean` | invariant over histories: the entries held are the minimal ones of those inserted; both models have the same size. `list_front` tells what `moveDivisorToFront` does to the order |

## 4. Findings

Places where the code does not do what its interface promises, with the theorem that
shows it. "Reading only" means: seen in the text, not expressible as a theorem about
the model (for example because the code does not compile).

* F1 (C05) `ComTree(ComTree&&)`, src/mathic/ComTree.h:172-183: the constructor resets its own
  `_lastLeaf`/`_capacityEnd` and not those of the argument. The new tree is empty and the
  source claims its old size over a null array. `Verif.ComTree.move_loses_contents`,
  `move_not_ok`; what is left is `move_partial`.
* F2 (C05, reading only) `Heap(Heap&&)`, src/mathic/Heap.h:39: `_tree(std::move(_tree))` moves the
  member from itself before it is constructed: undefined for every argument.
* F3 (reading only) `TourTree::reallocate`, src/mathic/TourTree.h:229-233: the pointers into the old player
  buffer are subtracted after `reserve` has freed that buffer, which is not defined by the standard. Harmless
  on usual platforms; the model stores player indices and so does not express it.
* F4 (reading only) `StlSet`, src/mathic/StlSet.h:57-64: the comparator of the set holds a pointer to the
  `_conf` member of the object it was constructed in, so the implicit copy constructor makes a set whose
  comparator refers to the source object.
* F5 (C44) `HashTable::reset`, src/mathic/HashTable.h:161-164: frees the nodes and keeps the table that points to
  them, and keeps the node count. `Verif.HashTable.reset_dangles`, `reset_not_ok`; what is left is `reset_partial`.
* F6 (reading only) `HashTable::remove`, src/mathic/HashTable.h:237-261, does not compile when instantiated (`Handle`
  has no default constructor, `hashvalue` is not part of the configuration, `p->key` is a member function);
  `hardReset` is declared and never defined.
* F7 `HashTable::mBinCount` is not updated by `insert`, contrary to its comment (src/mathic/HashTable.h:122-124).
  Not observable from outside. `Verif.HashTable.binCount_wrong`.
* F8 (C26) `DivMask::Calculator::rebuildDefault`, src/mathic/DivMask.h:312-327: with one variable and `int` exponents the
  last doubling computes 2^31, a signed overflow. `Verif.DivMask.rebuildDefault_overflows`.
* F9 (C59) `DivMask::Calculator::rebuild`, src/mathic/DivMask.h:300-306: the increment is at least 1, so a variable whose
  smallest exponent is near the largest `int` gives an overflowing threshold. `Verif.DivMask.rebuild_overflows`.
* F10 `rebuild` starts the minimum and maximum of every variable at the exponent of variable 0 of the first entry
  (src/mathic/DivMask.h:220-221, 288-289). The masks stay sound (C23 is proved with this), the thresholds are worse than intended.
* F11 (C31) `DivList::moveToFront`, src/mathic/DivList.h:569-572, breaks the order of a list that is sorted on insertion, and
  nothing in DivList forbids the call (`DivListModel` asserts it away). A sorted linked list then misses a divisor that it holds
  (`Verif.DivList.moveToFront_misses`), a sorted array runs `std::upper_bound` on a range that is not
  partitioned (`moveToFront_undefined`). Without sorting: `moveToFront_partial`.
* F12 (reading only) `DivList::const_iterator::getInternal` returns a `ListIter` made from a `CListIter`, and `getMemoryUse` calls
  `_list.capacity()`, which `std::list` does not have: these do not compile when instantiated
  (src/mathic/DivList.h:189, 217, 610-613).
* F13 (reading only) `DivList::removeMultiples` on an array takes its monomial by reference and compacts in place
  (src/mathic/DivList.h:239-245): with a reference to an element of the list itself the monomial changes during the
  call. The model passes monomials by value.
* F14 (C19) `constructPairData`, src/mathic/PairQueue.h:76-85: constructs a `PairData` and then calls `computePairData`. If that throws,
  nobody destructs the object: `Column::create` has no handler and the arena guard only gives the memory back.
  `Verif.PairQueue.pairQueue_leak`; what is left is `pairQueue_balance_partial`.
* F15 (C21) `addColumnDescending`, src/mathic/PairQueue.h:561-575: if a comparison throws in `mColumnQueue.push`, the tournament tree has already
  taken the new leaf in. The handler destructs the column and its memory is given back, but the queue keeps the pointer.
  `Verif.PairQueue.pairQueue_add_not_failsafe`; what is left is `pairQueue_add_failsafe_partial`.
* F16 If `computePairData` throws in `pop()`, the column has advanced and keeps the data of the previous pair, and the queue is not
  told (src/mathic/PairQueue.h:491, 596). The documentation promises nothing here. `Verif.PairQueue.pairQueue_pop_throw_stale`.
* F17 (C61) `incrementRowIndex`, src/mathic/PairQueue.h:474, 483: when the last rows of a column are retired, the data of an earlier row is
  destructed with the index of the last row. `Verif.PairQueue.pairQueue_destructs_other`; what is left is `pairQueue_destructs_own_partial`.
* F18 (reading only) the debug code in `Column::create` destructs `currentPd` with the row of `prevIt` (src/mathic/PairQueue.h:415-416).
* F19 (C14) `GeoFront<C,true>::clear`, src/mathic/GeoFront.h:185-188, empties the array of the front, but the buckets keep the
  positions noted in `_frontPos`, and `Geobucket::clear` does not reset them either. A later merge takes such a position for real:
  after a certain history `pop` returns 2 while 7 is held. `Verif.Geobucket.geobucket_clear_wrong`, `geobucket_clear_not_correct`; without
  `trackFront`: `geobucket_clear_partial`.
* F20 (C15) `Geobucket::push(begin, end)` with an empty range and `trackFront` puts an empty bucket into the front
  (src/mathic/Geobucket.h:647-648, 735-736); `top` then reads the last entry of an empty bucket.
  `Verif.Geobucket.geobucket_empty_range_wrong`; without `trackFront`: `geobucket_empty_range_partial`.
* F21 (C11) the documentation of `insertFactor` (src/mathic/Geobucket.h:55-57) does not exclude 0, with which every range goes to the
  smallest bucket and overflows it. `Verif.Geobucket.insertFactor_zero`.
* F22 `Geobucket::top` is `const` but, with deduplication and without `trackFront`, merges entries and so changes `size()`.
  `Verif.Geobucket.geobucket_top_merges`.
* F23 (C39) `KDTree::removeElement`, src/mathic/KDTree.h:171-176, does not call `reportChanges`: `size()` stays as it was.
  `Verif.KDTree.size_refuted`; what is left is `size_partial`.
* F24 (C40) for the same reason `_divisorCache` keeps pointing to an entry that is gone, and the next `findDivisor` reads it
  (src/mathic/KDTree.h:183-186). `Verif.KDTree.cache_refuted`; what is left is `cache_partial`.
* F25 (C63) `PackedKDTree::Node::splitInsert`, src/mathic/PackedKDTree.h:715-716: if all entries go to the right, `middle == begin` and the range is
  copied onto itself, which the standard leaves undefined; the comment above says that it does not happen.
  `Verif.KDTree.selfCopy_refuted`; binary trees: `selfCopy_partial`. The other theorems on packed trees take such a copy for harmless (`Conf.Lawful.selfCopy`).
* F26 (C64) the stack `_tmp` of nodes still to visit is a member of the tree and is not emptied if an output object throws. The next call
  also visits the nodes left on it. `Verif.KDTree.throwing_output_refuted`; what is left is
  `throwing_output_partial` (the entries stay, and `findDivisor` is exact all the same).
* F27 (C65) `KDEntryArray::split`, src/mathic/KDEntryArray.h:176-177: `min + (max - min) / 2` overflows for a signed type if `min` is negative,
  although the comment says that the formula avoids overflow. `Verif.KDTree.average_refuted`; what is left is `average_partial`.
* F28 (reading only) code that does not compile when it is instantiated: `KDTree::insert(begin, end)` (src/mathic/KDTree.h:153-168, hands entries to
  functions that take extended entries), `KDTree::clear` (:237-241, there is no `_tree.calc()`), `BinaryKDTree::removeElement` (src/mathic/BinaryKDTree.h:296,
  `Leaf` has no `removeElement`).
* F29 (C48) `withSIPrefix` and `bytesInUnit`, src/mathic/ColumnPrinter.cpp:234-268: the loop stops at the number of units, which is one past the
  last unit, so numbers of 999.95T or 1023.95TB and above read `units[4]`. `Verif.Ratio.units_refuted`, exactly when:
  `si_defined_iff`, `bytes_defined_iff`; what is left is `units_partial`.
* F30 (C66) `percentInteger`, src/mathic/ColumnPrinter.cpp:173-178: `numerator * 100` wraps around, so 2^62 of 2^62 are 0.0%; `oneDecimal` converts
  numbers that do not fit into `unsigned long long` (ratios from 2^64/10 on, negative ones), which is undefined.
  `Verif.Ratio.ratio_refuted`, `negative_refuted`; what is left is `ratio_nearest_partial`, `percent_nearest_partial`, `ratio_close`.
* F31 the documentation of `withSIPrefix` (src/mathic/ColumnPrinter.h) says that 123456789 gives "123.4G"; it gives "123.5M" (`#guard` in `PropRatio.lean`).
* F32 (C47) `ColumnPrinter::print(FILE*)` prints a C string, so the table is cut at the first NUL in a text. `Verif.ColumnPrinter.printFile_cut`.
* F33 (C52) `IntegerParameter::doProcessArgument`, src/mathic/IntegerParameter.cpp:24-38: an argument that is refused still changes the value ("12x" sets 12), and
  the error message names the range [0, 2^31-1] although 2^32-1 is accepted. `Verif.Cli.integer_error_changes`, `integer_range`.
* F34 (C53) `CliParser::parse`, src/mathic/CliParser.cpp: empty tokens are skipped, so an empty argument cannot be given, and the token after it
  is taken for the argument; an argument that starts with `-` is taken for an option; `-` alone selects the only parameter. These follow from
  `Verif.Cli.parse_ok_iff` and are among the `#guard`s.
* F35 (reading only) `CliParser::registerHelpAction` is declared and never defined (src/mathic/CliParser.h); the texts before and after the help
  cannot be set and stay empty; `HelpAction::_parser` is not initialised before `directOptions`; `INTERNAL_ERROR_UNIMPLEMENTED` in src/mathic/error.h uses a macro that is
  not defined.
* F40 (C71) `HelpAction::performAction`, src/mathic/HelpAction.cpp:99, lists `action->name()`; an action that is registered with `registerAction(name)` under another
  name is listed under a name that stands for nothing. `Verif.Help.help_names_work_refuted`; what is left is `help_names_work_partial`.
* F41 (C72) `DivList::removeElement`, src/mathic/DivList.h:449-464, and `KDTree::removeElement`, src/mathic/KDTree.h:171-176, do not report the removal, so that removals by them
  do not count for automatic rebuilds, against src/mathic/DivFinder.h:47-50.
* F42 (C73) `ColumnPrinter::oneDecimal`, src/mathic/ColumnPrinter.cpp:227-232, converts negative numbers to `unsigned long long`: undefined behaviour for -0.15 and less, and 0.0 for
  -0.14. `ratioDouble` and `percentDouble` take `double` and pass negative ratios on.
* F43 (C76) `KDTree::rebuild`, src/mathic/KDTree.h:244-251, reserves space for `size()` entries in its `EntryRecorder` (a `memt::ArenaVector`,
  which does not grow). After an output object has thrown, `_tmp` is left filled (F26), `forAll` hands out entries twice, and the recorder is
  written past its end: `recorder_refuted`. An automatic rebuild does the same. `insert` and the destructor are not affected.
* F44 (C78) `Simulator::randomSpans`, src/pqsim/Simulator.cpp:225-250, builds its events with `popDuplicates == false`, so it expects
  a value that is in two spans to be popped twice. `Model::pop` removes all duplicates. If two spans share a value, each of the queues
  is reported as wrong (or popped when empty). `main` has the call commented out.
* F45 (C78) `Simulator::dupSpans`, src/pqsim/Simulator.cpp:148-162: a span length of 1 gives `spanDeviation == 0` and `rand() % 0`; with
  0 elements `makeDescription` (lines 134, 137) divides by zero. `main` passes its arguments on unchecked. `orderSpans` has the same with
  no spans, and `rand() % 0` for an average size of 0. Also, `rand() % 100 <= dupPercentage` makes one percent more duplicates than
  asked for (so some for 0), which no property here speaks of.
* F46 (C79) `Simulation::run`, src/divsim/Simulation.h:242-306, keeps the finder from one repeat to the next, while the answers it is
  compared with are those of the first repeat. With two repeats a correct finder finds each divisor twice and is reported as wrong
  (if it minimizes: it puts out nothing the second time). `main` uses one repeat.
* F47 (C79) `main`, src/divsim/divMain.cpp:25-26, runs trees with leaves of one entry that do not minimize; the second insertion of a
  monomial throws (equal entries that do not fit in a leaf, C34) and nobody catches it. `rand() % 1000` in ten variables makes that unlikely.
* F48 (C79) `makeStandard`, src/divsim/Simulation.cpp:31: `i <= inserts` makes `inserts + 1` insertions and `queries - 1` queries. For
  zero variables, `Monomial`, src/divsim/Monomial.h:12, takes the address of element 0 of an empty vector.
* F49 (C80) `HashTable::grow`, src/mathic/HashTable.h:267-271, sets `mTableSize`, `mLogTableSize` and `mHashMask` before it makes the
  vector for the new table. If that throws `std::bad_alloc`, the old table is used with the new mask, and the next call with a hash value
  past the old size reads or writes past the end (`table_undefined`); the key of the call that threw stays inserted. If `hash` throws in the loop,
  src/mathic/HashTable.h:284, all nodes that were not moved yet are lost (`rehash_refuted`).
* F50 (C80) `HashTable::makeNode`, src/mathic/HashTable.h:169, counts the node before it is allocated. After an exception the count is too high
  for good: the next insertion of a new key fails its assertion in a debug build, and else the table grows too early (`count_refuted`).
* F51 (C82) `Heap`, src/mathic/Heap.h:140-192: if a comparison throws while there is a hole in the tree, the value that was to fill the hole is
  lost, and the entry last moved into or out of the hole is there twice (`heap_exceptions_refuted`: a heap of 3, 2, 1, 0 is one of 2, 2, 1 after `pop`
  has thrown, so that 3 and 0 are gone). If the first comparison of `push` throws, the order is lost (`heap_order_refuted`).
* F52 (C82) `TourTree::pop` and `decreaseTop`, src/mathic/TourTree.h:152-208: if a comparison throws in the loop, the nodes above still name the player that
  won there before, which may have no leaf below them. The next `pop` then removes from `_players` a player that it goes on to use: `player` and
  `right` are the same (`tourTree_pop_refuted`, `tourTree_decreaseTop_refuted`).
* F53 (C83) `DivList::removeMultiples` of arrays, src/mathic/DivList.h, and `KDEntryArray::removeMultiples`, src/mathic/KDEntryArray.h:308-314: if the monomial is
  an entry of the container, an entry that is kept may be moved to its place, and the entries after that are compared with the wrong monomial.
  `removeMultiples(x)` on x, y, x² leaves x² (`removeMultiples_own_refuted`, `kdTree_own_refuted`).
* F54 (C83) `DivList::removeMultiples` of linked lists erases the entry and then reads it (`removeMultiples_own_refuted`). `PackedKDTree::removeMultiples`,
  src/mathic/PackedKDTree.h:225-239, looks at the entries of a node before those of its children, so that it may read a destructed entry, too (tested by
  `#guard`, not proved). In `BinaryKDTree` the leaf of the entry comes last.
* F55 (C84, C05) In debug builds both trees fail `MATHIC_ASSERT(isValid())` in the destructor after a `ComTree` with an allocation has been moved
  (`comTree_move_asserts`). The assertion in src/mathic/Heap.h:132 comes after a `return` and is never evaluated.
* F56 (C85) `debugIsValid` in src/mathic/GeoFront.h:365 calls
  `std::equal` with the length of the front alone: a front that is too long reads past the end of the other vector, and one that is too short passes.
* F57 (C86) The exceptions of the KD trees are out of reach in debug builds: `MATHIC_ASSERT(false)` in src/mathic/KDEntryArray.h:181 comes
  before the `throw` of `split`, and `MATHIC_ASSERT(C::AllowRemovals)` in src/mathic/KDTree.h:98, 110 and 172 before those of the removals. On MSVC
  without MATHIC_DEBUG the assertions are `__assume`, so that the compiler may drop the exceptions from release builds as well. After an output object
  has thrown (F26), the nodes left in `_tmp` make the next enumeration, removal, rebuild and even the destructor fail an assertion.
* F58 (C87) A single `push` is not logarithmic: with 15 entries in capacities 1, 2, 4, 8 and no premerge a push compares 18 pairs (`#guard` in
  `PropGeoCompare.lean`). Only the sum over a history is bounded as stated.
* F59 (C89) The check that no row of a new column is retired (PairQueue.h:546-551) is within `#ifdef DEBUG`; the library's macro is `MATHIC_DEBUG`, and
  nothing defines `DEBUG`. A debug build accepts a retired row, and `topPair` then returns a pair with a retired index
  (`pairQueue_retired_row_refuted`). Retiring an index twice is an error by the documentation ("we want to assert in that case") and is
  not noticed (`pairQueue_retire_twice_refuted`).
* F60 (C90) PairQueue.h:416-417 hands the pair data of `*it` to `destructPairData` together with the row `*prevIt` (`pairQueue_check_other_refuted`), and if
  `compare` throws at line 412 neither pair data is destructed (`pairQueue_check_leak_refuted`).
* F61 (C88) The order check calls `computePairData` for every row, a release build only for the first; if it throws for a later row only a debug
  build throws (`pairQueue_debug_throws_alone`).
* F62 (C91) `makeNode` raises `mNodeCount` before it allocates (HashTable.h:169-171), and `grow` unlinks a node before it calls `hash`
  (HashTable.h:282-284). After an exception there the count is too high for good: a debug build stops at the next insertion of a new key
  (`hashTable_debug_spoiled`), a release build grows its table too early. After an exception of the vector for the new table (F49) the assertion on the
  count itself reads past the end of the table (`hashTable_debug_table`).
* F63 (C93) The assertion of `registerProduct` calls `createNullOnUnknown(name)` (NameFactory.h:120): it misses duplicates of names whose factory function
  returns a null pointer, and it calls that function in debug builds only (`nameFactory_debug_duplicates_refuted`).
* F64 (C95) `repeatToEndOfLine(char)` asserts that the character is not a newline (ColumnPrinter.cpp:60), `repeatToEndOfLine(char, col)` does not (54-57):
  with a newline the padding breaks rows in two (`columnPrinter_debug_lines_refuted`).
* F65 (C99): `KDTree::reportChanges` (src/mathic/KDTree.h:328-363) rebuilds without looking at `UseDivMask`, but `getName`
  shows automatic rebuilds only with masks (KDTree.h:316-319). Two trees without masks that differ in
  `getDoAutomaticRebuilds()` have the same name, and put out their entries in different orders. (A `DivList` without masks
  keeps its order in a rebuild, so there the same rule does no harm: `divList_name_behaviour`.)
* F66 (by reading): `DivList::getMemoryUse` (src/mathic/DivList.h:610-613) calls `_list.capacity()`, which `std::list` does
  not have, so it does not compile with `UseLinkedList`.
* F67 (C100): `ComTree::print` (src/mathic/ComTree.h:284) ends with `"}\n"`, though it has written no opening brace, and so do
  `Heap::print` (Heap.h:137) and `TourTree::print` (TourTree.h:218) after it: one closing brace too many.
* F68 (C100): with fast indices `ComTree::print` (ComTree.h:281) writes `_index`, which is the number of the node times
  `sizeof(Entry)`, where `getNormalIndex` (ComTree.h:94) would give the number.
* F69 (C100): `TourTree::print` writes the elements of a tree of `Player*`, that is addresses; the entries do not show.
* F70 (C101): `removeMultiples` on a vector (src/mathic/DivList.h:239-249) moves elements to the front and shortens the vector
  only at the end. If `push_back` of the output (line 244) or `divides` (line 240) throws in between, elements are there
  twice, and those put out may be there still. A sorted array is no longer sorted, so the next binary search is undefined.
  Lists (lines 253-275) put out first and erase then, and are right after any exception.
* F71 (C102): `orderSpans` with spans of no elements divides by zero (src/pqsim/Simulator.cpp:128-140), as it does with no
  spans (C78). `randomSpans` (src/pqsim/Simulator.cpp:225-250) passes a queue that keeps duplicates, as it pops a value as often as
  it has been pushed, and accuses the right ones (C78).
* F72 (C103): `Calculator::rebuild` clears the tests before it reads exponents (src/mathic/DivMask.h:214), and `DivList::rebuild`
  replaces masks one by one (src/mathic/DivList.h:582-584). If `getExponent` throws, entries keep masks that do not belong to the
  tests, and `findDivisor` does not find divisors that are in the list, until a rebuild succeeds. `insert` of a range into an
  empty list sorts at the end only (src/mathic/DivList.h:424-425), so an exception leaves a sorted array unsorted, and the next
  search is undefined.
* F73 (C104): `Geobucket::push` counts the entry (src/mathic/Geobucket.h:345) before it looks for its place (lines 355-397). If
  `compare` throws in the search, the entry is not in but stays counted: `size` is one too large and `empty` is false for a
  geobucket without entries, so `while (!empty()) pop();` has undefined behaviour. `clear` sets the number right.
* F36 (C55) `display`, src/mathic/display.cpp: strings are printed with `fputs`, so a word is cut at a NUL; the size of the line counts it all.
  `isspace` is called with a `char`, which is undefined for bytes from 128 to 254 where `char` is signed, so for all texts that are not ASCII.
  `Verif.Display.display_words_refuted`, `display_defined_refuted`, `display_undefined_iff`; what is left is `display_words_partial`.
* F37 (C56) if the first word does not fit after the prefix and the indentation, a line with these alone is printed first; white space alone at the end of a message is
  printed without an end of line. Both are part of `Verif.Display.display_iff` (`#guard`s in `PropDisplay.lean`).
* F38 (C69) `Timer::getMilliseconds`, src/mathic/Timer.cpp:4-11: halves are rounded up only as far as the double computation gives them exactly; 500500 microseconds
  are 500 milliseconds. `Verif.Timer.getMilliseconds_refuted`; what is left is `getMilliseconds_partial`.
* F39 (C62) `HashTable::grow`, src/mathic/HashTable.h:263-305: from one or two bins a single growth by four is not enough for the load of a tenth, since the threshold of
  4 or 8 bins is 0. `Verif.HashTable.load_refuted`; what is left is `load_partial`, and exactly `tableSize_eq`.

## How the mutations are judged

`seeded/LOG.jsonl` has one line for each wrong program that the theorems were tried on. `caught` means that the proof of at least
one theorem failed on a mutant whose definitions compile. A failed proof is strong evidence, but not a proof that the theorem is
false for the mutant: a mutant that is equivalent to the original can break a proof script too.

An audit of the log found entries that had been recorded as caught although no theorem had failed. They are corrected in place:

* `invalid` (7 entries): the mutant did not compile, so that nothing was tested. Well-typed versions were run again and are logged.
* `not caught by a theorem, only by a test run` (7 entries): an `example` or a `#guard` failed, the theorems still proved. Where
  the mutant violates a claim the theorems were tightened (`messages_name_kind`, `register_spec`, `dupSpans_pops`,
  `equal_fault_places`, `merge_compared`) or a `#guard` that kept a theorem from being tried was moved
  (`percentDouble1_close_partial`). The two mutants of `big` in `PairQueue` (C20) are harmless: rows below 65536 fit into 16 bits, so
  that the claim holds for these boundaries too.
* `equivalent` (1 entry): the theorem stays true for the mutant.
