{
 "claims": [
  {
   "property": "C01",
   "status": "proved",
   "theorems": [
    "Verif.Heap.heap_correct",
    "Verif.Heap.heap_multiset",
    "Verif.Heap.heap_conservation"
   ],
   "note": "All histories of push, range push, pop, decreaseTop, clear; the model is written on a list of cells, C04 ties ComTree to that list."
  },
  {
   "property": "C02",
   "status": "proved",
   "theorems": [
    "Verif.Heap.heap_correct",
    "Verif.Heap.heap_class_weight",
    "Verif.Heap.heap_dedup_only_equal"
   ],
   "note": "Weights that deduplicate adds up are conserved per class of equal entries."
  },
  {
   "property": "C03",
   "status": "proved",
   "theorems": [
    "Verif.ComTree.node_root",
    "Verif.ComTree.node_parent",
    "Verif.ComTree.node_left",
    "Verif.ComTree.node_right",
    "Verif.ComTree.node_next",
    "Verif.ComTree.node_nextBy",
    "Verif.ComTree.node_prev",
    "Verif.ComTree.node_sibling",
    "Verif.ComTree.node_leftSibling",
    "Verif.ComTree.node_isLeft",
    "Verif.ComTree.node_isRight",
    "Verif.ComTree.node_isRoot",
    "Verif.ComTree.node_index",
    "Verif.ComTree.node_lt",
    "Verif.ComTree.node_tree_laws",
    "Verif.ComTree.node_parent_left_right"
   ],
   "note": "Both index representations on 64-bit words, sizeof(Entry) a power of two when FastIndex is on."
  },
  {
   "property": "C04",
   "status": "proved",
   "theorems": [
    "Verif.ComTree.comTree_refines",
    "Verif.ComTree.holds_increaseCapacity",
    "Verif.ComTree.holds_pushAllWithCapacity",
    "Verif.ComTree.holds_copy"
   ],
   "note": "Sizes are unbounded naturals in the array part."
  },
  {
   "property": "C05",
   "status": "partial",
   "theorems": [
    "Verif.ComTree.move_loses_contents",
    "Verif.ComTree.move_not_ok",
    "Verif.ComTree.move_partial"
   ],
   "note": "The code violates the property for every non-empty source (proved); it holds for sources without allocation."
  },
  {
   "property": "C06",
   "status": "proved",
   "theorems": [
    "Verif.TourTree.tourTree_correct",
    "Verif.TourTree.tourTree_multiset"
   ],
   "note": "All histories of push, range push, pop, decreaseTop, clear, including reallocation."
  },
  {
   "property": "C07",
   "status": "proved",
   "theorems": [
    "Verif.TourTree.pop_ignores_removed"
   ],
   "note": "Stated as: pop gives the same result for every comparison that agrees on the entries that stay."
  },
  {
   "property": "C08",
   "status": "proved",
   "theorems": [
    "Verif.queues_sort_alike",
    "Verif.heap_sorts",
    "Verif.tourTree_sorts",
    "Verif.stlSet_sorts",
    "Verif.geobucket_sorts",
    "Verif.sorts_alike"
   ],
   "note": "All four queues, Geobucket in every configuration."
  },
  {
   "property": "C09",
   "status": "proved",
   "theorems": [
    "Verif.StlSet.stlSet_correct",
    "Verif.StlSet.stlSet_multiset"
   ],
   "note": "std::multiset by its contract."
  },
  {
   "property": "C10",
   "status": "proved",
   "theorems": [
    "Verif.Geobucket.geobucket_correct",
    "Verif.Geobucket.geobucket_multiset",
    "Verif.Geobucket.geobucket_conservation"
   ],
   "note": "All configurations; calls allowed are those of the property, that is ranges descending, with trackFront also not empty and no clear (C14, C15)."
  },
  {
   "property": "C100",
   "status": "partial",
   "theorems": [
    "Verif.Print.heap_print_rows_partial",
    "Verif.Print.heap_print_rows_fast",
    "Verif.Print.heap_print_inj",
    "Verif.Print.depth_flatten",
    "Verif.Print.heap_first_row",
    "Verif.Print.stlSet_print_inj",
    "Verif.Print.geobucket_print_defined",
    "Verif.Print.geobucket_print_iff",
    "Verif.Print.geobucket_print_balanced_partial",
    "Verif.Print.heap_print_braces",
    "Verif.Print.tourTree_print_braces",
    "Verif.Print.braces_refuted",
    "Verif.Print.labels_refuted",
    "Verif.Print.tourTree_print_refuted"
   ],
   "note": "Violated: Heap and TourTree write one closing brace too many; with fast indices the rows of a heap have multiples of the size of entries for labels; TourTree writes the addresses of players, not the entries. Proved: the rest, for all states."
  },
  {
   "property": "C101",
   "status": "partial",
   "theorems": [
    "Verif.DivList.linked_exceptions",
    "Verif.DivList.exception_perm",
    "Verif.DivList.removeX_none",
    "Verif.DivList.removeX_throws",
    "Verif.DivList.array_exceptions_partial",
    "Verif.DivList.array_exceptions_refuted",
    "Verif.DivList.array_order_refuted"
   ],
   "note": "Linked lists: proved in full, for all histories. Arrays: violated; an exception in the second loop leaves elements twice and, in a sorted array, an order that makes the next binary search undefined. Proved for arrays: exactly what the exception leaves, and that no element that is not a multiple is lost."
  },
  {
   "property": "C102",
   "status": "partial",
   "theorems": [
    "Verif.PQSim.Sim.dupSpans_telling",
    "Verif.PQSim.Sim.orderSpans_telling",
    "Verif.PQSim.Sim.pass_same",
    "Verif.PQSim.Sim.orderSpans_no_elements_refuted",
    "Verif.PQSim.Sim.randomSpans_telling_refuted"
   ],
   "note": "Proved in full for dupSpans, which main uses, and orderSpans. Violated for randomSpans, which expects a value twice that was pushed twice, so that a wrong queue passes."
  },
  {
   "property": "C103",
   "status": "partial",
   "theorems": [
    "Verif.DivList.rebuild_exception_partial",
    "Verif.DivList.insert_exception_partial",
    "Verif.DivList.damaged_never_false",
    "Verif.DivList.damaged_finds_partial",
    "Verif.DivList.insertRange_exception_partial",
    "Verif.DivList.insertRange_exception_empty",
    "Verif.DivList.masks_throw_iff",
    "Verif.DivList.tests_left",
    "Verif.DivList.collect_blind",
    "Verif.DivList.rebuild_exception_refuted",
    "Verif.DivList.insertRange_exception_refuted"
   ],
   "note": "Violated: until the next rebuild or insertion that succeeds, entries that are in the list are not found, and a sorted array may be left unsorted. Proved: no entry is lost, nothing false is found or removed, the next rebuild that succeeds makes the list good, and so does the next insertion if an insertion threw."
  },
  {
   "property": "C104",
   "status": "partial",
   "theorems": [
    "Verif.Geobucket.push_exception_partial",
    "Verif.Geobucket.push_threw",
    "Verif.Geobucket.push_can_throw",
    "Verif.Geobucket.clear_after_exception",
    "Verif.Geobucket.push_exception_refuted"
   ],
   "note": "Violated: the entry is counted before the search, so size is one too large until clear, and a client that pops until empty pops from an empty geobucket. Proved: the entries held, the values returned by all later calls and where these are defined are as without the pushes that threw; size is never too small, and too large by at most the number of pushes that threw since the last clear. Not modelled: exceptions in merges and in the front."
  },
  {
   "property": "C105",
   "status": "proved",
   "theorems": [
    "Verif.StlSet.stlSet_fifo",
    "Verif.StlSet.stlSet_pop_oldest"
   ],
   "note": "std::multiset::insert by its contract since C++11, which puts an element at the end of its range of equivalent elements."
  },
  {
   "property": "C11",
   "status": "proved",
   "theorems": [
    "Verif.Geobucket.geobucket_capacity",
    "Verif.Geobucket.geobucket_push_defined",
    "Verif.Geobucket.geobucket_correct",
    "Verif.Geobucket.insertFactor_zero"
   ],
   "note": "Writing past a capacity is undefined in the model and proved not to happen; insertFactor 0 is not excluded by the documentation and overflows (proved)."
  },
  {
   "property": "C12",
   "status": "proved",
   "theorems": [
    "Verif.Geobucket.geobucket_class_weight",
    "Verif.Geobucket.geobucket_class_weight_tracked",
    "Verif.Geobucket.geobucket_dedup_only_equal",
    "Verif.Geobucket.geobucket_top_merges"
   ],
   "note": "Any weight that deduplicate adds up, all configurations."
  },
  {
   "property": "C13",
   "status": "proved",
   "theorems": [
    "Verif.Geobucket.geobucket_front",
    "Verif.Geobucket.geobucket_max"
   ],
   "note": "The whole array of the front is characterised after every history."
  },
  {
   "property": "C14",
   "status": "partial",
   "theorems": [
    "Verif.Geobucket.geobucket_clear_partial",
    "Verif.Geobucket.geobucket_clear_wrong",
    "Verif.Geobucket.geobucket_clear_not_correct"
   ],
   "note": "The code violates the property with trackFront (proved); proved without trackFront."
  },
  {
   "property": "C15",
   "status": "partial",
   "theorems": [
    "Verif.Geobucket.geobucket_empty_range_partial",
    "Verif.Geobucket.geobucket_empty_range_wrong"
   ],
   "note": "The code violates the property with trackFront (proved); proved without trackFront."
  },
  {
   "property": "C16",
   "status": "proved",
   "theorems": [
    "Verif.PairQueue.pairQueue_defined",
    "Verif.PairQueue.pairQueue_no_throw",
    "Verif.PairQueue.pairQueue_top",
    "Verif.PairQueue.pairQueue_conserves",
    "Verif.PairQueue.pairQueue_descending"
   ],
   "note": "Columns are objects in memory that the tournament tree of C06 points to; no comparison of an exhausted column or of destructed data happens."
  },
  {
   "property": "C17",
   "status": "proved",
   "theorems": [
    "Verif.PairQueue.pairQueue_defined",
    "Verif.PairQueue.pairQueue_top",
    "Verif.PairQueue.pairQueue_top_alive",
    "Verif.PairQueue.pairQueue_retired_gone",
    "Verif.PairQueue.pairQueue_conserves_alive",
    "Verif.PairQueue.pairQueue_descending"
   ],
   "note": ""
  },
  {
   "property": "C18",
   "status": "proved",
   "theorems": [
    "Verif.PairQueue.pairQueue_data"
   ],
   "note": "For histories in which user code throws at most when a column is added; pairQueue_pop_throw_stale shows what happens if computePairData throws in pop."
  },
  {
   "property": "C19",
   "status": "partial",
   "theorems": [
    "Verif.PairQueue.pairQueue_balance_partial",
    "Verif.PairQueue.pairQueue_leak"
   ],
   "note": "The code violates the property if computePairData throws for a new column (proved); proved for histories in which only the constructor of PairData may throw."
  },
  {
   "property": "C20",
   "status": "proved",
   "theorems": [
    "Verif.PairQueue.store_exact",
    "Verif.PairQueue.pairQueue_rows_survive",
    "Verif.PairQueue.pairQueue_conserves_alive"
   ],
   "note": ""
  },
  {
   "property": "C21",
   "status": "partial",
   "theorems": [
    "Verif.PairQueue.pairQueue_add_failsafe_partial",
    "Verif.PairQueue.pairQueue_add_not_failsafe"
   ],
   "note": "The code violates the property if a comparison throws (proved); proved for the column limit and for throwing construction of pair data."
  },
  {
   "property": "C22",
   "status": "proved",
   "theorems": [
    "Verif.PairQueue.pairQueue_count"
   ],
   "note": ""
  },
  {
   "property": "C23",
   "status": "proved",
   "theorems": [
    "Verif.DivMask.mask_sound",
    "Verif.DivMask.mask_reject",
    "Verif.DivMask.ext_divides"
   ],
   "note": "Every calculator that rebuildDefault or rebuild can produce, for any tie order of std::sort."
  },
  {
   "property": "C24",
   "status": "proved",
   "theorems": [
    "Verif.DivMask.lowerBound_reject",
    "Verif.DivMask.lowerBound_weaken",
    "Verif.DivMask.lowerBound_bit"
   ],
   "note": ""
  },
  {
   "property": "C25",
   "status": "proved",
   "theorems": [
    "Verif.DivMask.built_tests",
    "Verif.DivMask.compute_test",
    "Verif.DivMask.compute_no_vars",
    "Verif.DivMask.built_increasing_bounds"
   ],
   "note": "The test is strictly greater, as the comment in the code says."
  },
  {
   "property": "C26",
   "status": "partial",
   "theorems": [
    "Verif.DivMask.rebuildDefault_overflows",
    "Verif.DivMask.rebuildDefault_not_ok",
    "Verif.DivMask.rebuildDefault_partial",
    "Verif.DivMask.rebuildDefault_wide",
    "Verif.DivMask.rebuildDefault_unsigned"
   ],
   "note": "The code violates the property for exactly one variable and int exponents (proved); all other cases proved."
  },
  {
   "property": "C27",
   "status": "proved",
   "theorems": [
    "Verif.DivList.findDivisor_exact",
    "Verif.DivList.findDivisorIterator_exact",
    "Verif.DivList.divList_correct",
    "Verif.DivList.divList_defined",
    "Verif.DivList.divList_step"
   ],
   "note": "All histories of all calls; arrays and linked lists, masks, sorting, automatic rebuilds; Entry and Monomial are one type."
  },
  {
   "property": "C28",
   "status": "proved",
   "theorems": [
    "Verif.DivList.enumerations_exact",
    "Verif.DivList.Delivered.all"
   ],
   "note": ""
  },
  {
   "property": "C29",
   "status": "proved",
   "theorems": [
    "Verif.DivList.removeMultiples_exact"
   ],
   "note": "The array version is modelled with its in-place compaction."
  },
  {
   "property": "C30",
   "status": "proved",
   "theorems": [
    "Verif.DivList.sorted_always"
   ],
   "note": "moveToFront excluded, see C31."
  },
  {
   "property": "C31",
   "status": "partial",
   "theorems": [
    "Verif.DivList.moveToFront_partial",
    "Verif.DivList.moveToFront_misses",
    "Verif.DivList.moveToFront_undefined"
   ],
   "note": "The code violates the property for sorted lists (proved for both storage kinds); proved for lists that are not sorted on insertion."
  },
  {
   "property": "C32",
   "status": "proved",
   "theorems": [
    "Verif.DivList.array_list_agree",
    "Verif.DivList.lists_agree"
   ],
   "note": ""
  },
  {
   "property": "C33",
   "status": "proved",
   "theorems": [
    "Verif.DivList.rebuilds_invisible",
    "Verif.DivList.lists_agree"
   ],
   "note": ""
  },
  {
   "property": "C34",
   "status": "proved",
   "theorems": [
    "Verif.KDTree.findDivisor_exact",
    "Verif.KDTree.kdTree_correct",
    "Verif.KDTree.kdTree_correct_element"
   ],
   "note": "Both kinds of tree, all options; also after removeElement if there is no cache."
  },
  {
   "property": "C35",
   "status": "proved",
   "theorems": [
    "Verif.KDTree.enumerations_exact",
    "Verif.KDTree.kdTree_correct"
   ],
   "note": "The order is left open; any output object that does not throw (C64)."
  },
  {
   "property": "C36",
   "status": "proved",
   "theorems": [
    "Verif.KDTree.removeMultiples_exact",
    "Verif.KDTree.removeMultiples_off",
    "Verif.KDTree.kdTree_correct"
   ],
   "note": "size() is part of the histories of kdTree_correct."
  },
  {
   "property": "C37",
   "status": "proved",
   "theorems": [
    "Verif.KDTree.insert_exact",
    "Verif.KDTree.rebuild_exact",
    "Verif.KDTree.kdTree_correct"
   ],
   "note": "That the tree stays well formed is the invariant under which all later calls are proved exact."
  },
  {
   "property": "C38",
   "status": "proved",
   "theorems": [
    "Verif.KDTree.insert_throws_iff",
    "Verif.KDTree.rebuild_exact",
    "Verif.KDTree.kdTree_correct"
   ],
   "note": "Throws iff LeafSize entries with these exponents are held."
  },
  {
   "property": "C39",
   "status": "partial",
   "theorems": [
    "Verif.KDTree.size_partial",
    "Verif.KDTree.size_refuted"
   ],
   "note": "The code violates the property after removeElement (proved); proved for histories without it."
  },
  {
   "property": "C40",
   "status": "partial",
   "theorems": [
    "Verif.KDTree.cache_partial",
    "Verif.KDTree.cache_refuted"
   ],
   "note": "The code violates the property after removeElement (proved); proved for histories without it."
  },
  {
   "property": "C41",
   "status": "proved",
   "theorems": [
    "Verif.KDTree.kdTrees_agree",
    "Verif.KDTree.kdTree_divList_agree"
   ],
   "note": ""
  },
  {
   "property": "C42",
   "status": "proved",
   "theorems": [
    "Verif.HashTable.hashTable_correct",
    "Verif.HashTable.lookup_first_insert"
   ],
   "note": "Pointer model with chains linked by next fields; all histories of insert, lookup and access through handles, any growth."
  },
  {
   "property": "C43",
   "status": "proved",
   "theorems": [
    "Verif.HashTable.grow_keeps",
    "Verif.HashTable.nodeCount_eq"
   ],
   "note": "Handles are allocation indices; growing to any size at any moment."
  },
  {
   "property": "C44",
   "status": "partial",
   "theorems": [
    "Verif.HashTable.reset_dangles",
    "Verif.HashTable.reset_not_ok",
    "Verif.HashTable.reset_partial"
   ],
   "note": "The code violates the property for every table that holds an entry (proved); it holds for a table never inserted into."
  },
  {
   "property": "C45",
   "status": "proved",
   "theorems": [
    "Verif.BitTriangle.bitTriangle_correct",
    "Verif.BitTriangle.unordered_symm"
   ],
   "note": "All histories; calls outside of the triangle are undefined."
  },
  {
   "property": "C46",
   "status": "proved",
   "theorems": [
    "Verif.ColumnPrinter.commafy_spec",
    "Verif.ColumnPrinter.commafy_unique",
    "Verif.ColumnPrinter.commafy_injective"
   ],
   "note": ""
  },
  {
   "property": "C47",
   "status": "proved",
   "theorems": [
    "Verif.ColumnPrinter.print_table",
    "Verif.ColumnPrinter.print_defined",
    "Verif.ColumnPrinter.init_columns",
    "Verif.ColumnPrinter.table_exists_unique",
    "Verif.ColumnPrinter.rows_line_up",
    "Verif.ColumnPrinter.cell_position",
    "Verif.ColumnPrinter.rows_are_lines",
    "Verif.ColumnPrinter.cells_of_lines",
    "Verif.ColumnPrinter.cells_of_repeat",
    "Verif.ColumnPrinter.run_columns",
    "Verif.ColumnPrinter.run_undefined",
    "Verif.ColumnPrinter.printFile_eq",
    "Verif.ColumnPrinter.printFile_cut"
   ],
   "note": "The text that print gives is the table of the cells written; print(FILE*) is cut at the first NUL (printFile_cut)."
  },
  {
   "property": "C48",
   "status": "partial",
   "theorems": [
    "Verif.Ratio.units_refuted",
    "Verif.Ratio.units_partial",
    "Verif.Ratio.si_defined_iff",
    "Verif.Ratio.bytes_defined_iff"
   ],
   "note": "The code violates the property (proved): reads outside of the table from 999.95T and 1023.95TB on; below that it is defined."
  },
  {
   "property": "C49",
   "status": "proved",
   "theorems": [
    "Verif.Ratio.fixed_length_ge",
    "Verif.Ratio.fixed_length"
   ],
   "note": "Doubles are modelled as rationals rounded to nearest even with 53 bits."
  },
  {
   "property": "C50",
   "status": "proved",
   "theorems": [
    "Verif.NameFactory.unique_ok_iff",
    "Verif.NameFactory.unique_unknown_iff",
    "Verif.NameFactory.unique_ambiguous_iff",
    "Verif.NameFactory.unique_outcomes",
    "Verif.NameFactory.lookup_cases",
    "Verif.NameFactory.createWithPrefix_spec",
    "Verif.NameFactory.create_spec",
    "Verif.NameFactory.register_spec",
    "Verif.NameFactory.messages_name_kind",
    "Verif.NameFactory.messages_form"
   ],
   "note": "Products are an arbitrary type, a null product is a distinct value; the names are assumed distinct."
  },
  {
   "property": "C51",
   "status": "proved",
   "theorems": [
    "Verif.NameFactory.namesWithPrefix_spec",
    "Verif.NameFactory.namesWithPrefix_more",
    "Verif.NameFactory.namesWithPrefix_unique",
    "Verif.NameFactory.namesWithPrefix_strict"
   ],
   "note": "Also with what the vector held before."
  },
  {
   "property": "C52",
   "status": "proved",
   "theorems": [
    "Verif.Cli.integer_accepts_iff",
    "Verif.Cli.integer_rejects",
    "Verif.Cli.integer_error_changes",
    "Verif.Cli.integer_range"
   ],
   "note": "unsigned int has 32 bits; the extraction of signed numbers is an arbitrary function."
  },
  {
   "property": "C53",
   "status": "proved",
   "theorems": [
    "Verif.Cli.layout_unique",
    "Verif.Cli.parse_created",
    "Verif.Cli.parse_null",
    "Verif.Cli.parse_ok_iff",
    "Verif.Cli.parse_exn",
    "Verif.Cli.parse_no_action",
    "Verif.Cli.parse_defined",
    "Verif.Cli.library_lawful"
   ],
   "note": "For arbitrary actions and parameters that keep their names; names distinct. What the errors are is part of the theorems."
  },
  {
   "property": "C54",
   "status": "proved",
   "theorems": [
    "Verif.Cli.bool_accepts"
   ],
   "note": ""
  },
  {
   "property": "C55",
   "status": "partial",
   "theorems": [
    "Verif.Display.display_iff",
    "Verif.Display.display_words_partial",
    "Verif.Display.display_keeps_words_partial",
    "Verif.Display.display_undefined_iff",
    "Verif.Display.shows_unique",
    "Verif.Display.display_words_refuted",
    "Verif.Display.display_defined_refuted"
   ],
   "note": "The code violates the property for messages with NUL, and is undefined for bytes from 128 to 254 if char is signed (proved). For all other messages it holds, and display_iff says what is printed for all messages where it is defined."
  },
  {
   "property": "C56",
   "status": "proved",
   "theorems": [
    "Verif.Display.display_fits",
    "Verif.Display.display_iff"
   ],
   "note": "For all messages for which the behaviour is defined (display_undefined_iff); the prefix is counted as printed."
  },
  {
   "property": "C57",
   "status": "proved",
   "theorems": [
    "Verif.Timer.printStream_spec",
    "Verif.Timer.printFile_spec",
    "Verif.Timer.print_reads_back",
    "Verif.Timer.isTime_unique",
    "Verif.Timer.print_shows"
   ],
   "note": ""
  },
  {
   "property": "C58",
   "status": "proved",
   "theorems": [
    "Verif.Minimize.list_minimal",
    "Verif.Minimize.list_front",
    "Verif.Minimize.tree_minimal",
    "Verif.Minimize.models_agree",
    "Verif.Minimize.size_unique"
   ],
   "note": "The divides of the configuration is assumed to be divisibility of exponent vectors; all options of both finders, moveDivisorToFront only without sorting (ASSERT of the constructor)."
  },
  {
   "property": "C59",
   "status": "partial",
   "theorems": [
    "Verif.DivMask.rebuild_overflows",
    "Verif.DivMask.rebuild_not_ok",
    "Verif.DivMask.rebuild_partial"
   ],
   "note": "The code violates the property for exponents near the largest int (proved); proved for exponents up to 2^31-32."
  },
  {
   "property": "C60",
   "status": "proved",
   "theorems": [
    "Verif.PairQueue.pairQueue_computes_alive"
   ],
   "note": ""
  },
  {
   "property": "C61",
   "status": "partial",
   "theorems": [
    "Verif.PairQueue.pairQueue_destructs_own_partial",
    "Verif.PairQueue.pairQueue_destructs_other"
   ],
   "note": "The code violates the property when rows at the end of a column have been retired (proved); proved for histories without retirement."
  },
  {
   "property": "C62",
   "status": "partial",
   "theorems": [
    "Verif.HashTable.tableSize_eq",
    "Verif.HashTable.load_partial",
    "Verif.HashTable.load_refuted"
   ],
   "note": "The code violates the property for tables that start with one or two bins (proved) until there are three keys; from four bins on it holds. The size of the table is given exactly. Up to 2^54 bins."
  },
  {
   "property": "C63",
   "status": "partial",
   "theorems": [
    "Verif.KDTree.selfCopy_refuted",
    "Verif.KDTree.selfCopy_partial"
   ],
   "note": "The code violates the property (proved); proved for binary trees. The other theorems on packed trees take such a copy to be harmless."
  },
  {
   "property": "C64",
   "status": "partial",
   "theorems": [
    "Verif.KDTree.throwing_output_refuted",
    "Verif.KDTree.throwing_output_partial"
   ],
   "note": "The code violates the property for both kinds of tree (proved); what is left: entries and size are not changed and the next findDivisor is exact."
  },
  {
   "property": "C65",
   "status": "partial",
   "theorems": [
    "Verif.KDTree.average_partial",
    "Verif.KDTree.average_refuted"
   ],
   "note": "The code violates the property for signed types with negative exponents (proved); proved for exponents that are not negative."
  },
  {
   "property": "C66",
   "status": "partial",
   "theorems": [
    "Verif.Ratio.ratio_nearest_partial",
    "Verif.Ratio.ratio_zero",
    "Verif.Ratio.percent_nearest_partial",
    "Verif.Ratio.ratio_close",
    "Verif.Ratio.ratio_refuted",
    "Verif.Ratio.negative_refuted"
   ],
   "note": "The code violates the property for large numbers (proved); exact for numerators below 2^45 and denominators below 2^50, close for all ratios below 2^59."
  },
  {
   "property": "C67",
   "status": "proved",
   "theorems": [
    "Verif.Ratio.si_nearest_tenth",
    "Verif.Ratio.bytes_nearest_tenth"
   ],
   "note": "For all numbers where C48 holds."
  },
  {
   "property": "C68",
   "status": "proved",
   "theorems": [
    "Verif.Cli.value_reads_back"
   ],
   "note": ""
  },
  {
   "property": "C69",
   "status": "partial",
   "theorems": [
    "Verif.Timer.getMilliseconds_partial",
    "Verif.Timer.getMilliseconds_refuted",
    "Verif.Timer.getMilliseconds_back",
    "Verif.Timer.getMilliseconds_overflow"
   ],
   "note": "The code violates the property (proved): half a millisecond is sometimes rounded down, as at 500500 microseconds. The result is always one of the nearest."
  },
  {
   "property": "C70",
   "status": "proved",
   "theorems": [
    "Verif.Help.help_list",
    "Verif.Help.help_list_words",
    "Verif.Help.lists_exists_unique",
    "Verif.Help.help_list_undefined_iff",
    "Verif.Help.help_topic",
    "Verif.Help.help_topic_defined",
    "Verif.Help.help_topic_errors",
    "Verif.Help.parse_help",
    "Verif.Help.parse_other"
   ],
   "note": "The order of parameters with the same name is left open by std::sort, so names of parameters are distinct in help_topic."
  },
  {
   "property": "C71",
   "status": "partial",
   "theorems": [
    "Verif.Help.help_names_work_partial",
    "Verif.Help.help_names_work_refuted"
   ],
   "note": "The code violates the property (proved): help lists what name() of the action returns and not the name that it is registered under. It holds if the two are the same."
  },
  {
   "property": "C72",
   "status": "partial",
   "theorems": [
    "Verif.DivList.rebuilds_partial",
    "Verif.DivList.rebuilds_actual",
    "Verif.DivList.rebuilds_refuted",
    "Verif.KDTree.rebuilds_partial",
    "Verif.KDTree.rebuilds_refuted"
   ],
   "note": "Violated by removeElement, which is not counted in DivList and KDTree (rebuilds_refuted, F41). Proved for all histories without removeElement (for KD trees also without throwing outputs); for DivList rebuilds_actual says what happens with removeElement."
  },
  {
   "property": "C73",
   "status": "partial",
   "theorems": [
    "Verif.Ratio.oneDecimal_close_partial",
    "Verif.Ratio.ratioDouble_close_partial",
    "Verif.Ratio.ratioDouble_zero",
    "Verif.Ratio.percentDouble_close_partial",
    "Verif.Ratio.percentDouble_zero",
    "Verif.Ratio.percentDouble1_close_partial",
    "Verif.Ratio.ratioDouble_refuted"
   ],
   "note": "Violated for negative ratios: undefined behaviour from about -0.15 down, 0.0 above (ratioDouble_refuted, F42). Proved for ratios from 0 to 2^59, with an error of the order of the precision of double, for numerators and denominators of either sign, and for denominators that are nearly zero."
  },
  {
   "property": "C74",
   "status": "proved",
   "theorems": [
    "Verif.GeoMem.geoMem_layout",
    "Verif.GeoMem.geoMem_length",
    "Verif.GeoMem.geoMem_correct",
    "Verif.GeoMem.geoMem_same"
   ],
   "note": "Ranges pushed are taken to lie outside of the geobucket."
  },
  {
   "property": "C75",
   "status": "proved",
   "theorems": [
    "Verif.Heap.compared_enough",
    "Verif.Heap.history_compared_enough",
    "Verif.Heap.push_compared",
    "Verif.Heap.pop_compared",
    "Verif.Heap.decreaseTop_compared",
    "Verif.Heap.top_clear_compared",
    "Verif.Heap.history_compared",
    "Verif.TourTree.compared_enough",
    "Verif.TourTree.history_compared_enough",
    "Verif.TourTree.call_compared",
    "Verif.TourTree.history_compared"
   ],
   "note": "A comparison is one call of compare, whose result is asked for less than and then for equality."
  },
  {
   "property": "C76",
   "status": "partial",
   "theorems": [
    "Verif.KDMem.binary_memory_partial",
    "Verif.KDMem.packed_memory_partial",
    "Verif.KDMem.recorder_refuted",
    "Verif.KDMem.cached_memory_refuted"
   ],
   "note": "The code violates the property after an output object has thrown (recorder_refuted, F43: rebuild then writes past the end of its recorder) and for removeElement with a divisor cache (cached_memory_refuted, F24). Proved for all other histories. Addresses are never reused in the model; the layout of a node in its block and alignment are not modelled; that ArenaVector has a fixed capacity is taken from memtailor."
  },
  {
   "property": "C77",
   "status": "proved",
   "theorems": [
    "Verif.PQSim.tourTreeModel_correct",
    "Verif.PQSim.stlSetModel_correct",
    "Verif.PQSim.heapModel_correct",
    "Verif.PQSim.geobucketModel_correct",
    "Verif.PQSim.geobucketSpanModel_correct",
    "Verif.PQSim.mainModels_correct"
   ],
   "note": "GeobucketModel on spans with deduplication, which main does not use, is not modelled. Sizes of geobuckets as documented (minBucketSize at least 1, geoBase at least 2, insertFactor at least 1)."
  },
  {
   "property": "C78",
   "status": "partial",
   "theorems": [
    "Verif.PQSim.Sim.dupSpans_fair_partial",
    "Verif.PQSim.Sim.orderSpans_fair_partial",
    "Verif.PQSim.Sim.main_passes_partial",
    "Verif.PQSim.Sim.dupSpans_one_refuted",
    "Verif.PQSim.Sim.dupSpans_zero_refuted",
    "Verif.PQSim.Sim.orderSpans_zero_refuted",
    "Verif.PQSim.Sim.orderSpans_empty_refuted",
    "Verif.PQSim.Sim.randomSpans_refuted",
    "Verif.PQSim.Sim.dupSpans_pops"
   ],
   "note": "The code violates the property (proved): randomSpans makes simulations that accuse every correct queue (F44), and dupSpans divides by zero for a span length of 1 or no elements, orderSpans for no spans or an average size of 0 (F45). Proved for all other parameters of dupSpans and orderSpans (spans of at least one value), if the function returns: with unlucky numbers it may draw forever."
  },
  {
   "property": "C79",
   "status": "partial",
   "theorems": [
    "Verif.DivSim.simulate_passes_partial",
    "Verif.DivSim.simulate_accuses",
    "Verif.DivSim.listModel_correct",
    "Verif.DivSim.treeModel_correct",
    "Verif.DivSim.main_passes_partial",
    "Verif.DivSim.main_throws",
    "Verif.DivSim.main_refuted",
    "Verif.DivSim.repeats_refuted",
    "Verif.DivSim.repeats_minimize_refuted",
    "Verif.DivSim.noVariables_refuted",
    "Verif.DivSim.insertions_refuted"
   ],
   "note": "The code violates the property (proved): with two repeats correct finders are accused (F46), main ends with an exception if two of the monomials inserted are equal (F47), there is one insertion too many (F48), no variables is undefined. Proved for one repeat, which is what main has, and at least one variable; main for distinct monomials. Masks need at least two variables (C59). Release build; the debug build, which compares all monomials, is not modelled."
  },
  {
   "property": "C80",
   "status": "partial",
   "theorems": [
    "Verif.HashTable.exceptions_harmless_partial",
    "Verif.HashTable.exceptions_behave_partial",
    "Verif.HashTable.exceptions_defined_partial",
    "Verif.HashTable.runT_faultless",
    "Verif.HashTable.table_undefined",
    "Verif.HashTable.table_refuted",
    "Verif.HashTable.table_harmless_refuted",
    "Verif.HashTable.rehash_refuted",
    "Verif.HashTable.count_refuted",
    "Verif.HashTable.equal_fault_places"
   ],
   "note": "The code violates the property (proved): an exception in the vector for the new table makes later calls undefined, an exception in hash while the table grows loses keys (F49), an exception in makeNode leaves the count too high (F50). Proved: exceptions outside of grow leave no trace in any answer; with exceptions in hash during grow no call is undefined, handles stay valid and all that is found is right."
  },
  {
   "property": "C81",
   "status": "proved",
   "theorems": [
    "Verif.Heap.heap_bag",
    "Verif.Heap.heap_bag_multiset",
    "Verif.Heap.heap_bag_conservation",
    "Verif.Heap.heap_bag_fixed",
    "Verif.TourTree.tourTree_bag",
    "Verif.TourTree.tourTree_bag_conservation"
   ],
   "note": "For heaps the answer of a comparison may depend on the number of comparisons made before. For tournament trees each call has its own comparison. heap_bag_fixed is about the model of C01. Not for Geobucket and StlSet, where the standard library requires an order."
  },
  {
   "property": "C82",
   "status": "partial",
   "theorems": [
    "Verif.Heap.heap_exceptions_partial",
    "Verif.Heap.heap_exceptions_size",
    "Verif.Heap.heap_exceptions_refuted",
    "Verif.Heap.heap_order_refuted",
    "Verif.TourTree.tourTree_exceptions_partial",
    "Verif.TourTree.tourTree_pop_refuted",
    "Verif.TourTree.tourTree_decreaseTop_refuted",
    "Verif.TourTree.tourTree_order_refuted"
   ],
   "note": "The code violates the property (proved): a heap loses an entry and doubles another one (F51), and a tournament tree uses a removed player after an exception in pop or decreaseTop (F52). Proved: a heap is never undefined, and each exception loses and doubles at most one entry; a tournament tree whose exceptions come from push alone is never undefined and its contents are right."
  },
  {
   "property": "C83",
   "status": "partial",
   "theorems": [
    "Verif.DivList.removeMultiples_own_partial",
    "Verif.DivList.removeMultiples_own_minimal_partial",
    "Verif.DivList.removeMultiples_own_refuted",
    "Verif.KDMem.binary_own_partial",
    "Verif.KDMem.binary_own_minimal_partial",
    "Verif.KDMem.packed_own_partial",
    "Verif.KDMem.kdTree_own_refuted"
   ],
   "note": "The code violates the property (proved): in arrays and in nodes of KD trees later entries are compared with another monomial (F53), and linked lists use a destructed entry (F54). Proved for the last entry of a list, for entries of an array of which few enough are kept, for arrays in which no entry divides another; for binary KD trees after any history if the entry is the last of its leaf, or if no entry divides another; for packed KD trees of one node in like cases."
  },
  {
   "property": "C84",
   "status": "proved",
   "theorems": [
    "Verif.ComTree.comTree_assertions",
    "Verif.ComTree.comTree_swap_assertions",
    "Verif.ComTree.comTree_element_assertion",
    "Verif.ComTree.comTree_popBack_asserts",
    "Verif.ComTree.comTree_move_asserts",
    "Verif.Heap.heap_assertions",
    "Verif.TourTree.tourTree_assertions"
   ],
   "note": "For trees that are not moved; a moved ComTree fails the assertion of its destructor (C05, F55), also proved."
  },
  {
   "property": "C85",
   "status": "partial",
   "theorems": [
    "Verif.Geobucket.geobucket_assertions_partial",
    "Verif.Geobucket.geobucket_queries_assertions",
    "Verif.Geobucket.geobucket_clear_assertion",
    "Verif.Geobucket.geobucket_empty_range_assertion",
    "Verif.Geobucket.geobucket_equal_range_assertion",
    "Verif.Geobucket.geobucket_clear_assertions_refuted",
    "Verif.Geobucket.geobucket_empty_range_assertions_refuted"
   ],
   "note": "False of clear() with trackFront on a geobucket that is not empty (F19) and of ranges without entries (F20): refuted, and proved when that happens. Proved for all histories of the other calls."
  },
  {
   "property": "C86",
   "status": "proved",
   "theorems": [
    "Verif.KDTree.kd_debug_agrees",
    "Verif.KDTree.kd_debug_fails",
    "Verif.KDTree.kd_debug_holds",
    "Verif.KDTree.kd_ratio_fails",
    "Verif.KDTree.kd_leftover_fails"
   ],
   "note": "The debug build agrees with the release build exactly as long as no call throws std::logic_error there, and fails an assertion at the first call that does; after an output object has thrown, later calls fail assertions (kd_leftover_fails)."
  },
  {
   "property": "C87",
   "status": "proved",
   "theorems": [
    "Verif.Geobucket.compared_enough",
    "Verif.Geobucket.history_compared_enough",
    "Verif.Geobucket.top_pop_compared",
    "Verif.Geobucket.buckets_bound",
    "Verif.Geobucket.history_compared_buckets",
    "Verif.Geobucket.history_compared",
    "Verif.Geobucket.merge_compared"
   ],
   "note": "Amortized bound on the comparisons of every history, bound on each top and pop, and proof that the trace lists every comparison that matters."
  },
  {
   "property": "C88",
   "status": "proved",
   "theorems": [
    "Verif.PairQueue.pairQueue_debug_history",
    "Verif.PairQueue.pairQueue_debug_defined",
    "Verif.PairQueue.pairQueue_debug_agrees",
    "Verif.PairQueue.pairQueue_debug_throws",
    "Verif.PairQueue.pairQueue_debug_observers",
    "Verif.PairQueue.pairQueue_debug_throws_alone",
    "Verif.PairQueue.pairQueue_debug_add_threw"
   ],
   "note": "All assertions hold over every history of legal calls, the states are those of a release build; the exception is proved with a witness."
  },
  {
   "property": "C89",
   "status": "partial",
   "theorems": [
    "Verif.PairQueue.pairQueue_misuse_caught_partial",
    "Verif.PairQueue.pairQueue_retired_row_refuted",
    "Verif.PairQueue.pairQueue_retire_twice_refuted"
   ],
   "note": "The code violates it: the check for retired rows is within #ifdef DEBUG, which nothing defines, and nothing checks for an index that is retired already. All other misuse is caught."
  },
  {
   "property": "C90",
   "status": "partial",
   "theorems": [
    "Verif.PairQueue.pairQueue_check_balance_partial",
    "Verif.PairQueue.pairQueue_check_other_refuted",
    "Verif.PairQueue.pairQueue_check_leak_refuted"
   ],
   "note": "The code violates it: line 417 destructs the data of *it with the row *prevIt, and an exception out of compare skips both destructions. If nothing throws the numbers agree."
  },
  {
   "property": "C91",
   "status": "partial",
   "theorems": [
    "Verif.HashTable.hashTable_debug_agrees_partial",
    "Verif.HashTable.hashTable_debug_faultless",
    "Verif.HashTable.hashTable_debug_total_partial",
    "Verif.HashTable.hashTable_count_iff",
    "Verif.HashTable.hashTable_debug_spoiled",
    "Verif.HashTable.hashTable_debug_refuted",
    "Verif.HashTable.hashTable_debug_rehash_refuted",
    "Verif.HashTable.hashTable_debug_table"
   ],
   "note": "The code violates it: makeNode raises mNodeCount before it allocates, and grow unlinks a node before it calls hash; after an exception there every later insertion of a new key fails an assertion. Proved for all other histories, and that nothing else goes wrong."
  },
  {
   "property": "C92",
   "status": "proved",
   "theorems": [
    "Verif.DivList.divList_debug_agrees",
    "Verif.DivList.divList_debug_never_fails",
    "Verif.DivList.divList_debug_ratio",
    "Verif.DivList.divList_removed_count"
   ],
   "note": "The value of the ratio is a flag, positive or not."
  },
  {
   "property": "C93",
   "status": "partial",
   "theorems": [
    "Verif.NameFactory.nameFactory_debug_register",
    "Verif.NameFactory.nameFactory_debug_duplicates_partial",
    "Verif.NameFactory.nameFactory_debug_unique",
    "Verif.NameFactory.nameFactory_debug_lookup",
    "Verif.NameFactory.nameFactory_debug_duplicates_refuted"
   ],
   "note": "The code violates it: the assertion makes a product of the name and compares it with the null pointer, so a name whose factory function returns a null pointer can be registered again. Proved if no factory function returns a null pointer."
  },
  {
   "property": "C94",
   "status": "proved",
   "theorems": [
    "Verif.BitTriangle.bitTriangle_debug",
    "Verif.BitTriangle.bitTriangle_debug_read",
    "Verif.Display.display_debug"
   ],
   "note": "Bytes on which isspace is undefined stay undefined in debug builds of display."
  },
  {
   "property": "C95",
   "status": "partial",
   "theorems": [
    "Verif.ColumnPrinter.columnPrinter_debug",
    "Verif.ColumnPrinter.columnPrinter_debug_print",
    "Verif.ColumnPrinter.columnPrinter_debug_lines_partial",
    "Verif.ColumnPrinter.columnPrinter_debug_lines_refuted"
   ],
   "note": "The code violates it: repeatToEndOfLine for one column does not check for a newline, as the one for all columns does. Proved for histories without that call."
  },
  {
   "property": "C96",
   "status": "proved",
   "theorems": [
    "Verif.Visit.heap_forAll",
    "Verif.Visit.heap_forAll_conservation",
    "Verif.Visit.tourTree_forAll",
    "Verif.Visit.tourTree_forAll_edit",
    "Verif.Visit.geobucket_forAll",
    "Verif.Visit.geobucket_forAll_assertions",
    "Verif.Visit.shown_unique"
   ],
   "note": "The heap has to fit the address space, as a node past the last one is computed. An edit that changes the order of entries breaks the tournament; that is up to the visitor."
  },
  {
   "property": "C97",
   "status": "proved",
   "theorems": [
    "Verif.Space.heap_same",
    "Verif.Space.heap_capacity",
    "Verif.Space.heap_memory",
    "Verif.Space.tourTree_capacity",
    "Verif.Space.tourTree_memory",
    "Verif.Space.geobucket_capacity",
    "Verif.Space.geobucket_memory"
   ],
   "note": "Capacities of std::vector are taken to be what was asked for. For Geobucket the bound is on the entries of _mem; the vector of buckets and the front, a few words for each bucket, are left out, and their number is bounded in C87. Memory is never given back before destruction."
  },
  {
   "property": "C98",
   "status": "proved",
   "theorems": [
    "Verif.Ask.divList_findDivisor_asks",
    "Verif.Ask.divList_findAllDivisors_asks",
    "Verif.Ask.divList_findAllMultiples_asks",
    "Verif.Ask.kdTree_findDivisor_asks",
    "Verif.Ask.kdTree_findAllDivisors_asks",
    "Verif.Ask.kdTree_findAllMultiples_asks",
    "Verif.Ask.kdTree_asks_few",
    "Verif.Ask.cache_asked_twice",
    "Verif.Ask.divList_questions_matter",
    "Verif.Ask.divList_enumerations_heed",
    "Verif.Ask.kdTree_questions_matter",
    "Verif.Ask.kdTree_enumerations_heed"
   ],
   "note": "The question about the cache is counted apart, because the search may ask about the same entry again (cache_asked_twice). Removals are left out. The lists of questions are defined beside the model of the queries; that they are complete is proved (the last part of each theorem), and that each question on them matters (the theorems ..._questions_matter)."
  },
  {
   "property": "C99",
   "status": "partial",
   "theorems": [
    "Verif.Name.heap_name_iff",
    "Verif.Name.tourTree_name_iff",
    "Verif.Name.pairQueue_name_iff",
    "Verif.Name.geobucket_name_iff",
    "Verif.Name.divList_name_iff",
    "Verif.Name.divList_name_behaviour",
    "Verif.Name.kdTree_name_iff",
    "Verif.Name.kdTree_name_partial",
    "Verif.Name.kdTree_name_refuted",
    "Verif.Name.kind_of_name",
    "Verif.Name.model_name_iff",
    "Verif.Name.queue_names_end",
    "Verif.Name.divListModel_name_iff",
    "Verif.Name.kdTreeModel_name_iff",
    "Verif.Name.mainNames_nodup"
   ],
   "note": "Violated by KDTree: without masks it rebuilds by itself too, the name does not show it, and the order in which entries are put out differs (kdTree_name_refuted). With masks, or without automatic rebuilds, the name tells all settings (kdTree_name_partial)."
  }
 ]
}