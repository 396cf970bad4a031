{"id": "C01", "title": "Heap is a max priority queue", "statement": "With deduplication off, after any sequence of push, range push, pop, decreaseTop and clear on a Heap (pop, top and decreaseTop only on a non-empty heap, decreaseTop only with an entry that is not larger than the top), the entries held are exactly the multiset of entries pushed minus those popped or replaced, top() is an entry that no held entry is larger than, pop() removes and returns exactly the entry that top() returned, and empty() is true iff that multiset is empty.", "quantifier": "for every strict weak order given by the configuration's compare, every entry type, every finite history of calls and both values of fastIndex", "why_tests_cant": "The set of histories and heap shapes is unbounded; the hole-down/hole-up moves have boundary cases (lone last left child, hole meeting the last leaf) that depend on the size and on the order of all earlier operations.", "anchors": ["src/mathic/Heap.h: push, pop, decreaseTop, clear, top, moveHoleDown, moveValueUp", "src/mathic/ComTree.h: ComTree::Node"]}
{"id": "C02", "title": "Heap deduplication loses and invents nothing", "statement": "With deduplication on, each call of the configuration's deduplicate(a,b) is made only on two entries that compare equal, and after any history the entries held, together with those popped, are obtained from the pushed entries by merging equal entries only: for any 'total weight' that deduplicate adds up inside an equivalence class, the weight of every class in the heap is the weight pushed minus the weight popped. top() is still a maximum and pop() still removes exactly it.", "quantifier": "for every strict weak order, every deduplicate that keeps the class and adds the weights, every history", "why_tests_cant": "A lost or doubled summand appears only when an equal entry is met part way up the sift-up path, and the repair step then re-inserts the last leaf at the old hole: the combinations of path length, position of the equal entry and last leaf are unbounded.", "anchors": ["src/mathic/Heap.h: push, moveValueUp, decreaseTop, pop"]}
{"id": "C03", "title": "Complete binary tree node arithmetic", "statement": "For every node of the complete tree, the byte-scaled (fastIndex) and the plain representation of a node describe the same 1-based index after each of parent, left, right, sibling, leftSibling, next, prev, isRoot, isLeft, isRight; parent(left(i)) = parent(right(i)) = i, sibling is an involution on non-roots and each non-root is exactly one of left(parent) and right(parent).", "quantifier": "for every node index that does not overflow and every power-of-two entry size that is at least two", "why_tests_cant": "The index space is unbounded and the scaled form uses masks and shifts by a size that depends on the entry type.", "anchors": ["src/mathic/ComTree.h: ComTreeNode, ComTree::Node (both fastIndex variants)"]}
{"id": "C04", "title": "Growing the tree array never changes its contents", "statement": "pushBack appends exactly one entry and leaves all earlier entries at their positions, also when it has to grow the array; pushBackWithCapacity after hasFreeCapacity(n) never writes outside of the allocated array; popBack removes exactly the last entry; the capacity is never below the size.", "quantifier": "for every sequence of pushBack, popBack, increaseCapacity, clear on a tree of any size", "why_tests_cant": "Reallocation happens at sizes 15, 31, 63, ... for ever, and correctness depends on every element copied.", "anchors": ["src/mathic/ComTree.h: pushBack, pushBackWithCapacity, popBack, hasFreeCapacity, increaseCapacity, clear, size"]}
{"id": "C05", "title": "Move construction transfers the contents", "statement": "A ComTree (and a Heap) that is move constructed from another holds exactly the entries the source held, and the source is left as a valid (destructible, usable) object.", "quantifier": "for every source tree", "why_tests_cant": "No unit test moves a tree; the property ranges over all contents.", "anchors": ["src/mathic/ComTree.h: ComTree(ComTree&&)", "src/mathic/Heap.h: Heap(Heap&&)"]}
{"id": "C06", "title": "TourTree is a max priority queue", "statement": "After any history of push, range push, pop, decreaseTop and clear on a TourTree (pop, top and decreaseTop only when it is non-empty) the entries held are exactly the multiset of entries pushed minus those popped or replaced, top() is an entry that no held entry is larger than, and pop() removes and returns exactly it.", "quantifier": "for every strict weak order, every history; decreaseTop with any new entry", "why_tests_cant": "The tournament tree relocates a leaf on each push and reassembles the last two leaves on each pop, with special cases when the popped player sits in one of these; the combinations grow without bound.", "anchors": ["src/mathic/TourTree.h: push, pop, decreaseTop, clear, top, reallocate, isValid"]}
{"id": "C07", "title": "TourTree pop does not look at the removed entry", "statement": "TourTree::pop never calls the configuration's compare with the entry that it is removing, so the result of pop does not depend on how that entry compares with others.", "quantifier": "for every tree state reachable by any history and every comparison function, even inconsistent on the removed entry", "why_tests_cant": "A test observes one comparison trace; the claim is about all trees and all paths from a leaf to the root.", "anchors": ["src/mathic/TourTree.h: pop"]}
{"id": "C08", "title": "All priority queues sort alike", "statement": "Pushing any list of entries into a Heap, a TourTree, an StlSet or a Geobucket and then popping until empty() yields a sequence that is a permutation of the input (no deduplication) and in which no entry is followed by a larger one; so all of them return the same sequence of equivalence classes.", "quantifier": "for every list of entries, every strict weak order, every geobucket configuration with geoBase>=2, minBucketSize>=1 and insertFactor>=1", "why_tests_cant": "It quantifies over all inputs and over four implementations with twenty-four static configurations.", "anchors": ["src/mathic/Heap.h", "src/mathic/TourTree.h", "src/mathic/StlSet.h", "src/mathic/Geobucket.h"]}
{"id": "C09", "title": "StlSet is a max priority queue", "statement": "After any history of push, range push and pop on an StlSet (pop and top only when it is non-empty; the class has no decreaseTop or clear), the entries held are exactly the multiset pushed minus popped, top() is a maximum of them, pop() removes and returns exactly it and empty() is true iff nothing is held.", "quantifier": "for every strict weak order and every history", "why_tests_cant": "Unbounded histories.", "anchors": ["src/mathic/StlSet.h: push, pop, top, empty"]}
{"id": "C10", "title": "Geobucket is a max priority queue", "statement": "With deduplication off, after any history of push, descending range push, top, pop, decreaseTop and clear (with trackFront: no clear and no empty ranges, see C14 and C15) on a Geobucket, the entries held are exactly the multiset pushed minus popped, top() is a maximum, pop() removes and returns exactly it, and size() and empty() agree with the multiset.", "quantifier": "for every strict weak order, every history, every combination of minBucketBinarySearch, premerge, collectMax, trackFront and bucketStorage, geoBase>=2, minBucketSize>=1, insertFactor>=1", "why_tests_cant": "The cascade of merges through buckets of growing capacity, with a cached maximum or a tracked front, has unboundedly many states.", "anchors": ["src/mathic/Geobucket.h: push, pop, top, decreaseTop, insert, mergeToNonEmpty, mergeToEmpty, moveToEmpty, merge, addBucket, clear, size", "src/mathic/GeoFront.h"]}
{"id": "C11", "title": "Geobucket capacities are respected", "statement": "In a Geobucket no bucket ever receives more entries than its capacity, the merge cascade never runs past the last bucket without first adding one, and pushing a range always finds or makes a bucket large enough for it.", "quantifier": "for every history of pushes of any sizes, geoBase>=2, minBucketSize>=1, insertFactor>=1", "why_tests_cant": "Capacities form an unbounded geometric sequence and the fill levels depend on the whole history; violations are only debug-asserted.", "anchors": ["src/mathic/Geobucket.h: insert, push, addBucket, Bucket::hasCapacity/merge"]}
{"id": "C12", "title": "Geobucket deduplication loses and invents nothing", "statement": "With supportDeduplication, deduplicate is only called on entries that compare equal, and for every additive weight the weight of each equivalence class held equals the weight pushed minus the weight popped; top() stays a maximum and size() equals the number of entries held.", "quantifier": "for every strict weak order, every deduplicate that keeps the class and adds the weights, every history, every static configuration", "why_tests_cant": "Merging happens inside single pushes, bucket merges, and front maintenance, at points depending on the whole history.", "anchors": ["src/mathic/Geobucket.h: push, merge, mergeToNonEmpty", "src/mathic/GeoFront.h: computeMax, keyDecreased, insert"]}
{"id": "C13", "title": "Tracked front always yields the bucket with the maximum", "statement": "With trackFront, the bucket that the front designates as maximal always is a non-empty bucket whose first entry is not less than the first entry of every other non-empty bucket, after any sequence of insertions, removals and key changes the geobucket makes.", "quantifier": "for every number of buckets and every sequence of front operations made on consistent tokens", "why_tests_cant": "The front is an insertion-sorted array with back-pointers in the buckets; all interleavings of growing/shrinking keys matter.", "anchors": ["src/mathic/GeoFront.h: GeoFront<C,true>: insert, keyIncreased, keyDecreased, remove, swapKeys, larger, getMax"]}
{"id": "C14", "title": "A cleared Geobucket behaves like a new one", "statement": "After clear(), a Geobucket is an empty priority queue: all later calls have the effects and results that C10 and C12 promise for a newly constructed one with the same configuration, and none of them is undefined that would not be undefined on an empty queue.", "quantifier": "for every history before the clear and every history after it", "why_tests_cant": "Stale bookkeeping only shows for special later histories.", "anchors": ["src/mathic/Geobucket.h: clear", "src/mathic/GeoFront.h: clear"]}
{"id": "C15", "title": "Pushing an empty range is harmless", "statement": "push(begin,end) with begin==end leaves the contents of a Geobucket unchanged and later calls well defined.", "quantifier": "for every state and static configuration", "why_tests_cant": "Depends on which bucket is chosen in each state.", "anchors": ["src/mathic/Geobucket.h: push(It,It), insert"]}
{"id": "C16", "title": "PairQueue hands out every pair once, best first", "statement": "Starting from an empty PairQueue, for any history of addColumnDescending and pop without retirements, the pairs handed out by topPair/pop together with the pairs still held are exactly the pairs (col,row) added, each once, topPair() is a pair such that no held pair's pair data compares larger, and empty() holds iff nothing is left.", "quantifier": "for every history of columns (rows strictly less than the column, in non-increasing order of the comparison), every strict weak order on pair data", "why_tests_cant": "The set of columns, their lengths and interleavings of pops and adds is unbounded.", "anchors": ["src/mathic/PairQueue.h: addColumnDescending, pop, topPair, empty, Column"]}
{"id": "C17", "title": "Retired indices never come back, others are untouched", "statement": "After retireIndex(i), no pair that involves i is ever returned by topPair()/pop, and every held pair that involves no retired index is still handed out exactly once, in non-increasing order.", "quantifier": "for every history of addColumnDescending, pop and retireIndex", "why_tests_cant": "A pair of a retired row may lie anywhere in any column, and becomes visible only after a particular series of pops.", "anchors": ["src/mathic/PairQueue.h: retireIndex, retired, pop, Column::incrementRowIndex, Column::create"]}
{"id": "C18", "title": "topPairData belongs to topPair", "statement": "topPairData() is always the pair data computed for exactly the pair that topPair() returns.", "quantifier": "for every history of addColumnDescending, pop and retireIndex", "why_tests_cant": "Pair data is stored per column and recomputed on advancing; a stale value would show only after some advance.", "anchors": ["src/mathic/PairQueue.h: topPairData, Column::pairData, incrementRowIndex"]}
{"id": "C19", "title": "Pair data is constructed and destructed in balance", "statement": "Over the life of a PairQueue, ending with its destructor, pair data objects are destructed exactly as often as they are constructed, never used while not constructed and never constructed over a live one; also when constructing pair data throws part way.", "quantifier": "for every history and for every point at which a pair data construction throws", "why_tests_cant": "It is a property of every throw point in every history.", "anchors": ["src/mathic/PairQueue.h: Column::create, incrementRowIndex, ~PairQueue, addColumnDescending"]}
{"id": "C20", "title": "Row indices survive the 16-bit storage", "statement": "The row index returned is the row index given: the choice of 16-bit storage for small columns never truncates an index.", "quantifier": "for every column index up to 2^32-2 and every row index less than it", "why_tests_cant": "The boundary is at 2^16; random tests use small columns.", "anchors": ["src/mathic/PairQueue.h: Column::create, rowIndex, big, Index, SmallIndex"]}
{"id": "C21", "title": "A failing addColumnDescending changes nothing", "statement": "If addColumnDescending throws (too many columns, or an exception out of pair data construction or comparison), the queue holds the same pairs in the same order as before and columnCount() is unchanged.", "quantifier": "for every state and every throw point", "why_tests_cant": "Exception points are not reachable by ordinary tests.", "anchors": ["src/mathic/PairQueue.h: addColumnDescending, Column::create"]}
{"id": "C22", "title": "pairCount bounds the pairs left", "statement": "pairCount() equals the number of pairs still held, counting pairs whose row has been retired but that have not been reached yet; it never is less than the number of pairs that pop will still hand out, and is 0 iff empty().", "quantifier": "for every history", "why_tests_cant": "Unbounded histories.", "anchors": ["src/mathic/PairQueue.h: pairCount, Column::size"]}
{"id": "C23", "title": "Divisibility masks never give a false negative", "statement": "If monomial a divides monomial b then DivMask(a).canDivide(DivMask(b)) is true, whenever both masks come from the same calculator, and the converse use is sound: canDivide false implies that a does not divide b.", "quantifier": "for every calculator state (default or rebuilt from any list of entries), every number of variables and all exponents", "why_tests_cant": "Exponents and calculator tables are unbounded.", "anchors": ["src/mathic/DivMask.h: DivMask, Calculator::compute, rebuild, rebuildDefault, canDivide, Extender::divides"]}
{"id": "C24", "title": "Mask intersection is a lower bound", "statement": "For a node whose mask was reset and then updated with every entry below it, mask.canDivide(m) false implies that no entry below the node divides the monomial with mask m, whatever further entries are added with updateToLowerBound.", "quantifier": "for every set of entries and every order of updates", "why_tests_cant": "All subsets of entries.", "anchors": ["src/mathic/DivMask.h: combineAnd, HasDivMask::resetDivMask, updateToLowerBound, getDivMask"]}
{"id": "C25", "title": "Mask calculators fill at most the available bits with true thresholds", "statement": "After rebuild or rebuildDefault the calculator has at most 32 (mask width) tests, all on existing variables; bit 31-i of a mask of m is set iff the exponent of m at the variable of test i is strictly greater than its threshold, so compute never shifts a test out of the mask; for signed exponents the thresholds of one variable are distinct.", "quantifier": "for every variable count and every list of entries", "why_tests_cant": "All variable counts incl. 0, 1, more than 32, and all exponent ranges incl. constant ones.", "anchors": ["src/mathic/DivMask.h: rebuild, rebuildDefault, compute"]}
{"id": "C26", "title": "rebuildDefault performs no overflowing exponent arithmetic", "statement": "rebuildDefault(varCount) computes its thresholds without integer overflow for a 32-bit signed exponent type.", "quantifier": "for every varCount", "why_tests_cant": "Overflow is undefined behaviour and gives no observable failure in a test.", "anchors": ["src/mathic/DivMask.h: Calculator::rebuildDefault"]}
{"id": "C27", "title": "DivList.findDivisor is exact", "statement": "findDivisor(m) returns an element of the list that divides m if there is one and null/end otherwise.", "quantifier": "for every history of inserts, removals and rebuilds, every monomial, all of UseLinkedList, UseDivMask, sortOnInsert (with an order that refines divisibility)", "why_tests_cant": "All lists and monomials; the sorted search stops early.", "anchors": ["src/mathic/DivList.h: findDivisor, findDivisorIterator, insert, removeMultiples, rebuild"]}
{"id": "C28", "title": "DivList enumerations are exact", "statement": "findAllDivisors, findAllMultiples and forAll hand to the output each matching element exactly once, in list order, until the output returns false and none after that.", "quantifier": "for every list state, monomial and every output policy (stop points)", "why_tests_cant": "All stop points of all lists.", "anchors": ["src/mathic/DivList.h: findAllDivisors, findAllMultiples, forAll"]}
{"id": "C29", "title": "DivList.removeMultiples removes exactly the multiples", "statement": "removeMultiples(m) removes exactly the elements that m divides, keeps the relative order of the rest, gives each removed one once to the output and returns true iff something was removed; size() agrees.", "quantifier": "for every list and monomial, both storage kinds", "why_tests_cant": "All lists.", "anchors": ["src/mathic/DivList.h: removeMultiples, size"]}
{"id": "C30", "title": "Sorted DivList stays sorted", "statement": "With sortOnInsert the list is sorted by isLessThan after any sequence of insert, range insert, removeMultiples, removeElement and rebuild.", "quantifier": "for every history and every strict weak order", "why_tests_cant": "Unbounded histories.", "anchors": ["src/mathic/DivList.h: insert, removeMultiples, removeElement"]}
{"id": "C31", "title": "DivList.moveToFront keeps queries exact", "statement": "moveToFront(it) leaves the set of elements the same and all later queries exact.", "quantifier": "for every configuration, list and iterator", "why_tests_cant": "Only later queries at special points show a miss.", "anchors": ["src/mathic/DivList.h: moveToFront, findDivisor"]}
{"id": "C32", "title": "Array and linked list DivLists agree", "statement": "A DivList with UseLinkedList and one without give the same answers (same elements, same order) to every history of calls when entries are inserted one by one.", "quantifier": "for every history of insert, removeMultiples, removeElement, moveToFront, findDivisor, findAllDivisors, findAllMultiples, forAll and rebuild", "why_tests_cant": "Two implementations over all histories.", "anchors": ["src/mathic/DivList.h"]}
{"id": "C33", "title": "Automatic rebuilds are invisible", "statement": "Whether automatic rebuilds are on, and when they happen, changes no answer of DivList: contents, order and query results are those of the list without rebuilds.", "quantifier": "for every history, rebuild ratio and minimum", "why_tests_cant": "Rebuild points depend on the history and a floating point ratio.", "anchors": ["src/mathic/DivList.h: reportChanges, rebuild, resetNumberOfChangesTillRebuild", "src/mathic/KDTree.h: reportChanges, rebuild"]}
{"id": "C34", "title": "KD tree findDivisor is exact", "statement": "KDTree::findDivisor(m) returns an element that divides m if there is one and null otherwise.", "quantifier": "for every history of insert, removeMultiples, rebuild and queries that throws no exception; both tree kinds (PackedTree), any LeafSize>=1, with or without divisibility masks, tree masks, sortOnInsert, divisor cache", "why_tests_cant": "All trees that any history of splits can make.", "anchors": ["src/mathic/KDTree.h: findDivisor", "src/mathic/BinaryKDTree.h: findDivisor, insert, splitInsert", "src/mathic/PackedKDTree.h: findDivisor, insert, splitInsert", "src/mathic/KDEntryArray.h: findDivisor, split"]}
{"id": "C35", "title": "KD tree findAllDivisors and findAllMultiples are exact", "statement": "findAllDivisors(m,out)/findAllMultiples(m,out) hand out every element that divides m / that m divides exactly once and nothing else, as long as the output returns true; if it returns false the output is not called again.", "quantifier": "for every tree of any history, monomial and output policy", "why_tests_cant": "All trees and stop points.", "anchors": ["src/mathic/BinaryKDTree.h: findAllDivisors, findAllMultiples", "src/mathic/PackedKDTree.h: findAllDivisors, findAllMultiples", "src/mathic/KDEntryArray.h: findAllDivisors, findAllMultiples"]}
{"id": "C36", "title": "KD tree removeMultiples removes exactly the multiples", "statement": "removeMultiples(m,out) removes exactly the elements that m divides, hands each of them to the output once, returns true iff there were any, and leaves a tree on which all queries are exact; size() decreases by their number.", "quantifier": "for every tree of any history and every monomial", "why_tests_cant": "All trees.", "anchors": ["src/mathic/KDTree.h: removeMultiples", "src/mathic/BinaryKDTree.h: removeMultiples", "src/mathic/PackedKDTree.h: removeMultiples", "src/mathic/KDEntryArray.h: removeMultiples"]}
{"id": "C37", "title": "KD tree insert and rebuild keep the contents", "statement": "insert(e) adds exactly e to the contents and rebuild() changes the contents not at all; the tree stays well formed (each element on the correct side of all splits, no leaf over its capacity) so that all later queries are exact.", "quantifier": "for every tree of any history, every entry for which insert does not throw", "why_tests_cant": "All trees; rebuild reshapes the entire tree.", "anchors": ["src/mathic/BinaryKDTree.h: insert, reset, splitInsert", "src/mathic/PackedKDTree.h: insert, reset, splitInsert", "src/mathic/KDEntryArray.h: split"]}
{"id": "C38", "title": "KD tree insert fails only on too many identical entries, and cleanly", "statement": "insert throws exactly when the new entry cannot be separated: the leaf that it belongs to is full and all entries in it and the new one have the same exponent in every variable (so only with more than LeafSize entries of identical exponents); the contents are then as before. rebuild never throws on a tree built by non-throwing calls.", "quantifier": "for every history and entry", "why_tests_cant": "Depends on the choice of split variables in every tree.", "anchors": ["src/mathic/KDEntryArray.h: split", "src/mathic/BinaryKDTree.h: splitInsert, reset", "src/mathic/PackedKDTree.h: splitInsert, reset", "src/mathic/KDTree.h: insert"]}
{"id": "C39", "title": "KD tree size is exact", "statement": "size() and empty() of a KDTree equal the number of elements that forAll visits.", "quantifier": "for every history including removeElement", "why_tests_cant": "Unbounded histories.", "anchors": ["src/mathic/KDTree.h: size, empty, insert, removeMultiples, removeElement"]}
{"id": "C40", "title": "The divisor cache never returns a removed or wrong element", "statement": "With getUseDivisorCache, findDivisor returns an element that currently is in the tree and divides the monomial.", "quantifier": "for every history of inserts, removals, rebuilds and queries including removeElement", "why_tests_cant": "The cache is a raw pointer into the tree; staleness needs a special interleaving.", "anchors": ["src/mathic/KDTree.h: findDivisor, removeMultiples, removeElement, insert, rebuild"]}
{"id": "C41", "title": "Binary and packed KD trees agree with DivList", "statement": "Given the same history of insert and removeMultiples, BinaryKDTree, PackedKDTree and DivList hold the same multiset of elements, report the same sets of divisors and multiples and agree about whether a divisor exists.", "quantifier": "for every history without exceptions", "why_tests_cant": "Three implementations over all histories.", "anchors": ["src/mathic/KDTree.h", "src/mathic/BinaryKDTree.h", "src/mathic/PackedKDTree.h", "src/mathic/DivList.h"]}
{"id": "C42", "title": "HashTable is a map", "statement": "After any history of inserts, lookup(k) finds the value that was given with the first insert of a key equal to k, and finds nothing if there was none; insert of an existing key returns false and the existing handle and changes nothing.", "quantifier": "for every hash function that respects key equality, every initial bit count, every history (with all the growths that it causes)", "why_tests_cant": "Collisions and growth happen at unbounded sizes.", "anchors": ["src/mathic/HashTable.h: insert, lookup, grow"]}
{"id": "C43", "title": "HashTable growth keeps every entry and handle", "statement": "When the table grows, every key stays found, with the same handle and the same value; the number of nodes is the number of distinct keys.", "quantifier": "for every table content", "why_tests_cant": "Rehashing relinks all chains.", "anchors": ["src/mathic/HashTable.h: grow, getNodeCount"]}
{"id": "C44", "title": "HashTable reset gives an empty usable table", "statement": "After reset() the table is empty and can be used like a new one.", "quantifier": "for every table content", "why_tests_cant": "Use after free does not show reliably in tests.", "anchors": ["src/mathic/HashTable.h: reset, lookup"]}
{"id": "C45", "title": "BitTriangle is an independent bit per unordered pair", "statement": "bit(c,r) returns the value last stored with setBit(c,r) and false if none was; setBit and addColumn change no other bit; the unordered forms are symmetric.", "quantifier": "for every number of columns and every history", "why_tests_cant": "Unbounded histories.", "anchors": ["src/mathic/BitTriangle.h: addColumn, bit, setBit, bitUnordered, setBitUnordered"]}
{"id": "C46", "title": "commafy groups the digits by three", "statement": "commafy(n) is the decimal representation of n with a comma between each group of three digits counted from the right: removing the commas gives back the decimal digits, and the commas stand exactly before each digit position divisible by three from the right.", "quantifier": "for every unsigned 64-bit (indeed every natural) number", "why_tests_cant": "2^64 inputs.", "anchors": ["src/mathic/ColumnPrinter.cpp: commafy"]}
{"id": "C47", "title": "Printed columns line up", "statement": "print emits one line per row; within each column all cells, with padding, have the same width, so that every line has the same length, and the text of each cell is there unchanged, flush left or right; padding uses the repeat character if one is set.", "quantifier": "for every number of columns and every text in them", "why_tests_cant": "All texts including unequal line counts, empty texts and repeat markers.", "anchors": ["src/mathic/ColumnPrinter.cpp: print, getLineWidth, repeatToEndOfLine"]}
{"id": "C48", "title": "Unit suffixes are read inside the unit table", "statement": "withSIPrefix and bytesInUnit never read outside of their tables of units.", "quantifier": "for every unsigned 64-bit number", "why_tests_cant": "Needs huge inputs that tests do not use.", "anchors": ["src/mathic/ColumnPrinter.cpp: withSIPrefix, bytesInUnit"]}
{"id": "C49", "title": "percentIntegerFixed has a fixed width", "statement": "percentIntegerFixed(n,d) has at least six characters and exactly six for ratios up to 999.9%, for all n with n*100 representable.", "quantifier": "for all numerators and denominators", "why_tests_cant": "2^128 inputs.", "anchors": ["src/mathic/ColumnPrinter.cpp: percentIntegerFixed, percentInteger, ratioInteger, oneDecimal"]}
{"id": "C50", "title": "Prefix lookup of names", "statement": "uniqueNameWithPrefix(p) returns p if p is a registered name, otherwise the only registered name with prefix p; it throws UnknownName exactly if no name has prefix p and AmbiguousName exactly if p is no name and at least two have it. createWithPrefix creates the product of that name.", "quantifier": "for every set of registered (distinct) names and every prefix", "why_tests_cant": "All name sets.", "anchors": ["src/mathic/NameFactory.h: uniqueNameWithPrefix, namesWithPrefix, createWithPrefix, createNullOnUnknown, registerProduct"]}
{"id": "C51", "title": "namesWithPrefix lists the matching names in order", "statement": "namesWithPrefix(p,v) on an empty vector gives exactly the registered names with prefix p, in lexicographic increasing order.", "quantifier": "for every factory and prefix", "why_tests_cant": "All name sets.", "anchors": ["src/mathic/NameFactory.h: namesWithPrefix"]}
{"id": "C52", "title": "Integer parameters accept exactly canonical 32-bit decimals", "statement": "IntegerParameter accepts an argument iff it is the canonical decimal representation (no sign, no leading zeros) of a number less than 2^32, and then has that value.", "quantifier": "for every string", "why_tests_cant": "Infinitely many strings.", "anchors": ["src/mathic/IntegerParameter.cpp: doProcessArgument"]}
{"id": "C53", "title": "Command line parsing", "statement": "CliParser::parse selects the action by its name prefix, gives all tokens before the first option to the action as direct options, and processes each option with the following non-option token as its argument; an unknown, ambiguous option or a missing dash leads to an error and all tokens are consumed exactly once.", "quantifier": "for every list of tokens and every set of actions and parameters", "why_tests_cant": "All command lines.", "anchors": ["src/mathic/CliParser.cpp: parse"]}
{"id": "C54", "title": "Bool parameters", "statement": "BoolParameter accepts exactly the empty argument and 'on' (true), and 'off' (false); all else is an error that leaves the value as it was.", "quantifier": "for every string", "why_tests_cant": "All strings.", "anchors": ["src/mathic/BoolParameter.cpp: doProcessArgument"]}
{"id": "C55", "title": "Line breaking keeps the words", "statement": "display(msg,prepend) prints all words (maximal non-space runs) of each line of msg in order and unbroken; only white space is dropped, and only where a line is broken or at the end of a line; every printed line starts with prepend and the indentation of the broken line.", "quantifier": "for every message and prefix", "why_tests_cant": "All messages.", "anchors": ["src/mathic/display.cpp: Printer"]}
{"id": "C56", "title": "Automatic lines fit the console", "statement": "A line printed by display is longer than 79 characters only if it consists of prefix and indentation plus at most one word.", "quantifier": "for every message and prefix", "why_tests_cant": "All messages.", "anchors": ["src/mathic/display.cpp: Printer::printWord"]}
{"id": "C57", "title": "Printed times read back", "statement": "Timer::print prints hours, minutes, seconds and three digits of milliseconds that add up exactly to the measured milliseconds, with minutes and seconds less than 60.", "quantifier": "for every number of milliseconds", "why_tests_cant": "All durations.", "anchors": ["src/mathic/Timer.cpp: print"]}
{"id": "C58", "title": "Insertion with minimization keeps a minimal generating set", "statement": "Insert-with-minimize as in the divisor simulation (skip the entry if a divisor is held, else remove its multiples and insert it) keeps the contents an antichain of divisibility whose set of multiples is exactly the set of multiples of all entries ever inserted.", "quantifier": "for every history of such inserts, on DivList and on KD trees", "why_tests_cant": "All histories.", "anchors": ["src/divsim/DivListModel.h: insert", "src/divsim/KDTreeModel.h: insert", "src/mathic/DivList.h", "src/mathic/KDTree.h"]}
{"id": "C59", "title": "rebuild performs no overflowing exponent arithmetic", "statement": "Calculator::rebuild computes its averages, increments and thresholds without integer overflow for a signed exponent type of 32 bits and entries with non-negative exponents.", "quantifier": "for every list of entries with exponents in 0 .. 2^31-1 and every number of variables", "why_tests_cant": "Overflow needs extreme exponents and has no visible effect in a test.", "anchors": ["src/mathic/DivMask.h: Calculator::rebuild"]}
{"id": "C60", "title": "No pair data is computed for a retired index", "statement": "No call of PairQueue computes pair data for a pair that involves a retired index, including the call that retires it (as the documentation of retireIndex says).", "quantifier": "for every history of addColumnDescending, pop and retireIndex, and every call after it", "why_tests_cant": "The computations are in calls of user code that happen after particular series of pops.", "anchors": ["src/mathic/PairQueue.h: retireIndex, pop, Column::incrementRowIndex"]}
{"id": "C61", "title": "Pair data is destructed with its own indices", "statement": "Whenever destructPairData(pd, col, row, conf) is called, pd currently holds the data of (col,row).", "quantifier": "for every history of addColumnDescending, pop and retireIndex", "why_tests_cant": "The default destruction ignores the indices; a wrong row shows only with a specialized DestructPairDataFunction after a retirement.", "anchors": ["src/mathic/PairQueue.h: DestructPairDataFunction, Column::incrementRowIndex, Column::destruct"]}
{"id": "C62", "title": "HashTable keeps its load bounded", "statement": "After every call the number of keys in the table is at most a tenth of the number of bins; the table grows, to four times the bins, exactly when an insertion goes past that.", "quantifier": "for every history and initial bit count (up to 2^54 bins)", "why_tests_cant": "Slow tables give the same answers.", "anchors": ["src/mathic/HashTable.h: insert, grow, makeNode"]}
{"id": "C63", "title": "Insertion into a packed KD tree copies no range onto itself", "statement": "PackedKDTree::insert does not call std::copy with a destination inside the source range (undefined by the standard: the first element of the result must not be in the range that is copied).", "quantifier": "for every history of inserts, every LeafSize", "why_tests_cant": "A copy onto itself works with common libraries.", "anchors": ["src/mathic/PackedKDTree.h: Node::splitInsert"]}
{"id": "C64", "title": "An output object that throws does not spoil a KD tree", "statement": "If the proceed of an output object throws in findAllDivisors, findAllMultiples or forAll, later calls on the tree give the answers they would have given without the call that threw.", "quantifier": "for every history, both kinds of tree", "why_tests_cant": "Needs exceptions out of user code at a particular place.", "anchors": ["src/mathic/BinaryKDTree.h: findAllDivisors, findAllMultiples, forAll", "src/mathic/PackedKDTree.h: findAllDivisors, findAllMultiples, forAll"]}
{"id": "C65", "title": "Splitting a leaf computes the average of exponents without overflow", "statement": "KDEntryArray::split computes a value between two exponents (at least the smaller one, less than the larger one) with no overflow, as its comment says.", "quantifier": "for every two exponents of the exponent type, signed or unsigned", "why_tests_cant": "Extreme exponents only.", "anchors": ["src/mathic/KDEntryArray.h: split"]}
{"id": "C66", "title": "Ratios are printed to the nearest tenth", "statement": "ratioInteger(n,d) prints n/d rounded to the nearest tenth with halves up, and percentInteger(n,d) does so for 100n/d followed by a percent sign; denominator zero gives 0/0 or ?/0.", "quantifier": "for all unsigned 64-bit numerators and denominators", "why_tests_cant": "2^128 inputs, and the computation is in double precision, where single inputs may round the wrong way.", "anchors": ["src/mathic/ColumnPrinter.cpp: ratioInteger, percentInteger, oneDecimal"]}
{"id": "C67", "title": "Amounts with units are printed to the nearest tenth", "statement": "withSIPrefix(l) is l itself below 1000 and otherwise a number with one decimal from 1.0 to 999.9 followed by a unit so that no number with one decimal and that unit is nearer to l; bytesInUnit the same with 1024 and 1.0 to 1023.9, halves rounded up.", "quantifier": "for every number for which they are defined (C48)", "why_tests_cant": "All numbers; double precision may round single ones the wrong way or pick the wrong unit.", "anchors": ["src/mathic/ColumnPrinter.cpp: withSIPrefix, bytesInUnit, oneDecimal"]}
{"id": "C68", "title": "Values of parameters read back", "statement": "What valueAsString() gives for a parameter is accepted by processArgument of a parameter of the same kind and sets that value.", "quantifier": "for every value of a BoolParameter, IntegerParameter or StringParameter", "why_tests_cant": "2^32 integers and infinitely many strings.", "anchors": ["src/mathic/BoolParameter.cpp", "src/mathic/IntegerParameter.cpp", "src/mathic/StringParameter.cpp: valueAsString, processArgument"]}
{"id": "C69", "title": "Milliseconds are rounded", "statement": "Timer::getMilliseconds gives the time since the last reset in milliseconds, rounded to the nearest with halves up.", "quantifier": "for every span of less than 2^50 microseconds", "why_tests_cant": "The computation is in double precision, where single spans may round the wrong way.", "anchors": ["src/mathic/Timer.cpp: getMilliseconds"]}
{"id": "C70", "title": "The help texts", "statement": "The help action without a topic prints all registered actions in lexicographic order of their names, each with its name and one-line summary side by side, between the two help messages. With a topic it prints name and description of the action that the topic stands for and then all its parameters in order of their names, each with argument type, default and description; a topic that no action or more than one has as a prefix is reported as an error, and so is a second topic.", "quantifier": "for every set of registered actions with distinct names, whose names and summaries are single lines, all their texts in ASCII, and every topic", "why_tests_cant": "All sets of actions and texts; needs the column printer, the line breaking and the prefix lookup together.", "anchors": ["src/mathic/HelpAction.cpp: directOptions, displayActionHelp, performAction", "src/mathic/CliParser.cpp: createActionWithPrefix"]}
{"id": "C71", "title": "Names listed by help can be used", "statement": "Each action name that the help action lists can be given on the command line and as a topic of help, and means the action beside which it is listed.", "quantifier": "for every set of registered actions with distinct names", "why_tests_cant": "All ways to register actions.", "anchors": ["src/mathic/HelpAction.cpp: performAction", "src/mathic/CliParser.h: registerAction"]}
{"id": "C72", "title": "Automatic rebuilds happen when they are due", "statement": "With automatic rebuilds, a divisor finder recomputes its masks exactly when the number of entries inserted and removed since the last rebuild reaches max(size() * getRebuildRatio(), getRebuildMin()), with size() at the last rebuild; otherwise only rebuild() and the insertion of a range into an empty DivList do so. At all times every entry has the mask that belongs to the entries present at the last rebuild.", "quantifier": "for every configuration that meets the documented requirements and every history of calls", "why_tests_cant": "Counters over unbounded histories with all mixes of insertions and removals; masks do not show in the answers of queries.", "anchors": ["src/mathic/DivFinder.h: getUseAutomaticRebuild, getRebuildRatio, getRebuildMin (documentation)", "src/mathic/DivList.h: resetNumberOfChangesTillRebuild, reportChanges, rebuild, insert, removeMultiples, removeElement", "src/mathic/KDTree.h: resetNumberOfChangesTillRebuild, reportChanges, rebuild, insert, removeMultiples, removeElement"]}
{"id": "C73", "title": "Ratios of floating point numbers are printed to the nearest tenth", "statement": "oneDecimal(d), percentDouble(r) and, for a denominator of absolute value at least 10^-9, ratioDouble(n, d) and percentDouble(n, d) print a number with one decimal that is within 1/20 of the exact value, up to the precision of double; with a smaller denominator, 0/0 is printed if the numerator is as small and ?/0 if not.", "quantifier": "for every pair of doubles with a ratio of absolute value at most 2^59", "why_tests_cant": "2^128 inputs, computed with rounding; the cases of negative numbers are easily missed.", "anchors": ["src/mathic/ColumnPrinter.cpp: oneDecimal, ratioDouble, percentDouble"]}
{"id": "C74", "title": "Buffers of geobuckets never overlap", "statement": "The buckets and the temporary buffers of a geobucket lie in one block of memory. After every history of calls each bucket has a buffer of its capacity, two of these with double buffers, or one of the largest capacity if all buffers have the same size, and the temporary buffers have the largest capacity; all of these lie in the block, no two of them overlap, and together they are as long as the block. No call reads or writes outside of the block or overwrites an entry before it is used, so all calls return what they would for buckets that are mathematical sequences.", "quantifier": "for every configuration (each kind of storage, with and without premerging, deduplication, front tracking) and every history of allowed calls", "why_tests_cant": "Overlapping buffers corrupt entries only in certain histories, and exchanges of buffers make the layout depend on the whole history.", "anchors": ["src/mathic/Geobucket.h: addBucket, mergeToNonEmpty, moveToEmpty, insert, Bucket::setBuffer, Bucket::setBufferWithNewEntries, Bucket::switchToOtherBuffer"]}
{"id": "C75", "title": "Priority queues make few comparisons", "statement": "For each entry pushed, popped or replaced, Heap makes at most 2 log2 N comparisons and TourTree at most log2 N + 1, where N is the number of entries ever pushed; merges of equal entries are included. A push into a heap of n entries makes at most log2(n+1), a pop at most 2 log2(n-1) and log2(n-1) more for each entry merged away. top and clear make none. Nothing else about the order influences what a call does.", "quantifier": "for every configuration, even if its comparison is no order, every history of calls that are defined", "why_tests_cant": "Counts over all histories and all outcomes of comparisons; a test sees single histories and no worst case.", "anchors": ["src/mathic/Heap.h: push, pop, decreaseTop, moveHoleDown, moveValueUp", "src/mathic/TourTree.h: push, pop, decreaseTop"]}
{"id": "C76", "title": "KD trees handle their memory correctly", "statement": "In BinaryKDTree, PackedKDTree and KDEntryArray entries are constructed in raw memory and nodes are taken from an arena that runs no destructors. Through every history of calls each entry is constructed exactly where no entry is and destructed where one is, nothing is read or assigned where there is no entry, no pointer that is null, unset or dangling is followed, rebuild never records more entries than it has reserved space for, and the calls give back what they should. At any time the entries alive are exactly those that the tree holds, and after the destructor no entry is alive and no node in use.", "quantifier": "for every configuration that keeps its contract, both kinds of trees, every leaf size, every history of calls (insertions that split nodes, queries, enumerations cut short, removals, rebuilds)", "why_tests_cant": "A leaked or doubly destroyed entry, or a read of raw memory, is invisible for plain types and depends on the shape of the tree that the whole history has built.", "anchors": ["src/mathic/KDEntryArray.h: all members", "src/mathic/BinaryKDTree.h: insert, reset, clear, removeMultiples, findDivisor, forAll, Leaf::splitInsert", "src/mathic/PackedKDTree.h: insert, reset, clear, removeMultiples, removeElement, Node::splitInsert", "src/mathic/KDTree.h: rebuild, EntryRecorder"]}
{"id": "C77", "title": "The queues of the simulator pop each value once, largest first", "statement": "Each of the queue models that pqsim runs (on elements or on spans, with and without deduplication, with pop and push or with decreaseTop) behaves like a set of values: push of a sorted range adds its values, pop returns the largest value present and removes it with all of its duplicates, in whichever ranges they were pushed, and empty() tells whether a value is left. Every call returns, and no call but pop of an empty queue is undefined; no assertion fails.", "quantifier": "for TourTreeModel, StlSetModel, HeapModel on elements and on spans, GeobucketModel with every choice of parameters, and every history of pushes of non-empty sorted ranges and of pops", "why_tests_cant": "Duplicates are spread over ranges, held back in a list of pending items or merged at any depth of the queue, in an order that depends on the whole history.", "anchors": ["src/pqsim/Model.h: push, pop, deduplicate", "src/pqsim/Item.h: all members", "src/pqsim/HeapModel.h", "src/pqsim/TourTreeModel.h", "src/pqsim/StlSetModel.h", "src/pqsim/GeobucketModel.h", "src/pqsim/pqMain.cpp: main"]}
{"id": "C78", "title": "The simulator does not accuse correct queues", "statement": "Whatever numbers rand() returns, a simulation made by dupSpans, orderSpans or randomSpans is fair: run() on a queue that behaves as a set of values (C77) is defined, pops only where a value is left, never reports an incorrect value, for any number of repeats, and leaves the queue empty. dupSpans pushes at least as many values as asked for, orderSpans as many spans as asked for; the ranges pushed are sorted, have no duplicates and the length asked for (within 10 and a factor of two for dupSpans). Making a simulation is never undefined.", "quantifier": "for every sequence of random numbers, all parameters, every queue that is correct and every number of repeats", "why_tests_cant": "The events depend on up to millions of random numbers; tests run with srand(0) and one choice of parameters.", "anchors": ["src/pqsim/Simulator.cpp: SimBuilder, dupSpans, orderSpans, randomSpans, makeDescription", "src/pqsim/Simulator.h: run", "src/pqsim/pqMain.cpp: main"]}
{"id": "C79", "title": "The simulation does not accuse correct divisor finders", "statement": "Whatever numbers rand() returns, Simulation::run on any sequence of correct divisor finders (that all minimize on insertion or all do not) after makeStandard reports none of them as wrong, for any number of repeats, and reports a finder that gives any other answer after a correct one; DivListModel and KDTreeModel are correct: insert, findDivisor and findAllDivisors answer as a multiset of monomials does. makeStandard makes as many insertions and queries as it is asked for, and main runs to its end.", "quantifier": "for every sequence of random numbers, every number of variables, insertions, queries and repeats, both kinds of queries, all kinds of DivListModel and KDTreeModel and every other correct finder", "why_tests_cant": "The events depend on up to 20 million random numbers, and a finder is only compared with the ones that ran before; main runs one fixed choice with srand(0).", "anchors": ["src/divsim/Simulation.h: run, MonomialStore", "src/divsim/Simulation.cpp: makeStandard, makeRandom", "src/divsim/DivListModel.h: DivListModelConfiguration, DivListModel", "src/divsim/KDTreeModel.h: KDTreeModelConfiguration, KDTreeModel", "src/divsim/Monomial.h: Monomial", "src/divsim/divMain.cpp: main"]}
{"id": "C80", "title": "Exceptions in a hash table leave no trace", "statement": "A call of HashTable::insert or lookup that throws (because hash or keysEqual of the configuration, the copy of a key or value, or an allocation throws) leaves the table as it was: all later calls answer as though the call that threw had not been made, and handles stay valid.", "quantifier": "for every lawful configuration, every initial size, every history of insert, lookup and reads and writes through handles, and every choice of the calls that throw and of the place in them where they throw", "why_tests_cant": "Tests do not make allocations or the functions of the configuration throw, let alone at every place in every call of every history.", "anchors": ["src/mathic/HashTable.h: makeNode, insert, lookup, grow"]}
{"id": "C81", "title": "Queues lose nothing, whatever comparisons answer", "statement": "Heap and TourTree keep their contents even if compare of the configuration is no order: they hold exactly the entries that were pushed and not taken out by pop or replaced by decreaseTop (with deduplication: the sum of any weight that deduplicate adds up). No call is undefined but top, pop and decreaseTop of an empty queue; pop returns and removes the entry that top shows.", "quantifier": "for every history of calls, and all answers of comparisons: for Heap the same two entries may be compared differently each time, for TourTree in each call", "why_tests_cant": "Tests use a correct comparison. There are too many answer sequences to try, and a lost entry shows only in some.", "anchors": ["src/mathic/Heap.h: push, pop, decreaseTop, moveHoleDown, moveValueUp", "src/mathic/TourTree.h: push, pop, decreaseTop"]}
{"id": "C82", "title": "Exceptions of comparisons do not spoil a queue", "statement": "If compare or deduplicate of the configuration throws in a call of Heap or TourTree, then the queue holds afterwards the entries that it held before the call, or those that it holds after the call is done; no later call is undefined unless it needs an entry of an empty queue.", "quantifier": "for every history of calls, and every choice of the comparisons that throw", "why_tests_cant": "Tests do not make comparisons throw, let alone at every place in every history.", "anchors": ["src/mathic/Heap.h: push, pop, decreaseTop, moveHoleDown, moveValueUp", "src/mathic/TourTree.h: push, pop, decreaseTop"]}
{"id": "C83", "title": "An entry of the container itself as argument of removeMultiples", "statement": "removeMultiples of DivList and KDTree takes the monomial by reference. If it refers to an entry of the container, the call does what it does with a copy of that entry: it removes and puts out the entries that are multiples of it, among them the entry itself, and no others.", "quantifier": "for every history of calls, both kinds of lists and of trees, and every entry of the container", "why_tests_cant": "Tests pass a monomial of their own. Whether the entry is overwritten or destructed before its last use depends on its place and on the entries beside it.", "anchors": ["src/mathic/DivList.h: removeMultiples", "src/mathic/KDEntryArray.h: removeMultiples", "src/mathic/BinaryKDTree.h: removeMultiples", "src/mathic/PackedKDTree.h: removeMultiples"]}
{"id": "C84", "title": "The assertions of ComTree, Heap and TourTree never fail", "statement": "In a debug build (MATHIC_DEBUG and MATHIC_SLOW_DEBUG) no assertion of ComTree, Heap or TourTree fails as long as calls are allowed: each call returns what it returns in a release build. A TourTree that is empty and asked for its top fails an assertion. So compilers that take assertions of release builds for granted (__assume) may do so.", "quantifier": "for every history of calls, every strict weak order, with and without deduplication, both representations of nodes, every initial capacity", "why_tests_cant": "Tests check assertions for the histories that they run; the validity checks cost linear time after each call, so tests with them are small.", "anchors": ["src/mathic/stdinc.h: MATHIC_ASSERT", "src/mathic/ComTree.h: isValid", "src/mathic/Heap.h: isValid", "src/mathic/TourTree.h: isValid"]}
{"id": "C85", "title": "The assertions of Geobucket and GeoFront never fail", "statement": "In a debug build (MATHIC_DEBUG and MATHIC_SLOW_DEBUG) no assertion of Geobucket or GeoFront fails as long as calls are allowed: each call returns what it returns in a release build, and top, pop and decreaseTop on an empty geobucket fail an assertion instead of being undefined.", "quantifier": "for every history of calls, every strict weak order, all options of the configuration, every minimal bucket size, geometric base from 2 on and insert factor from 1 on", "why_tests_cant": "The checks take linear time after each call, and there are 2^6 instances of the template, most of which no test runs in a debug build.", "anchors": ["src/mathic/Geobucket.h: isValid", "src/mathic/GeoFront.h: debugIsValid", "src/mathic/stdinc.h: MATHIC_ASSERT"]}
{"id": "C86", "title": "Debug builds of the KD trees do what release builds do, until one throws", "statement": "In a debug build no assertion of KDTree, BinaryKDTree, PackedKDTree or KDEntryArray fails as long as no call throws in the release build, and each call returns what it returns there, from construction to destruction. A call that throws std::logic_error in a release build (no room for a further copy, removals switched off) fails an assertion instead. A rebuild ratio that is not positive fails an assertion in the constructor.", "quantifier": "for every lawful configuration, binary and packed, with or without cache, tree masks, sorting and automatic rebuilds, every history of calls whose output objects do not throw (and removeElement only for packed trees without a cache)", "why_tests_cant": "The checks walk the whole tree after each call; on MSVC a false assertion is undefined behaviour even in a release build (stdinc.h), and the conditions that fail need many copies of one monomial or configurations that no test has.", "anchors": ["src/mathic/KDTree.h: insert, removeMultiples, removeElement, reportChanges", "src/mathic/BinaryKDTree.h: debugIsValid", "src/mathic/PackedKDTree.h: debugIsValid", "src/mathic/KDEntryArray.h: debugIsValid, split", "src/mathic/stdinc.h: MATHIC_ASSERT"]}
{"id": "C87", "title": "The geobucket compares logarithmically few pairs per entry, over a history of calls", "statement": "The comparisons of any history of calls from the empty Geobucket are at most the sum of the charges of its calls. With base b = geoBase, m = minBucketSize, f = insertFactor and N entries ever pushed, there are never more than K = log_b(f*N/m) + 2 buckets. A push is charged the search in the smallest bucket (ceil(log2 m) by bisection, m - 1 else), b + (b+1)*K for its entry and 2(K-1) for the front; a range push likewise for each entry, with b*f more for the merge; top and pop are charged K - 1, which bounds each single call as well; clear is free. What a call does depends on the order only through these comparisons.", "quantifier": "for every sane and lawful configuration (tracked or untracked front, premerge on or off, deduplication on or off, binary or linear search, every storage) and every history of calls whose range pushes are sorted (and not empty for a tracked front)", "why_tests_cant": "The bound is amortized: a single push may compare as many pairs as there are entries, so that the cost of one call shows nothing and the bound speaks about all histories; timing a benchmark cannot tell a logarithmic number of comparisons per entry from one that degenerates for some mixture of pushes, range pushes and pops.", "anchors": ["src/mathic/Geobucket.h: push, pop, top, decreaseTop, insertBucketNoPremerge, insertBucketPremerge, mergeToTemporary", "src/mathic/GeoFront.h: keyIncreased, keyDecreased, insert, computeMax"]}
{"id": "C88", "title": "A debug build of PairQueue does what a release build does", "statement": "As long as the documentation is kept to, no MATHIC_ASSERT or MATHIC_SLOW_ASSERT of PairQueue and of the tournament tree of its columns fails, nothing is undefined, and every call ends in the state in which it ends in a release build; empty, topPair, topPairData, retired and the destructor agree too. The one exception: if computePairData throws for a row of a new column that is not the first, addColumnDescending of a debug build throws (and changes nothing) where a release build succeeds.", "quantifier": "for every lawful configuration, with or without retirement, every history of legal calls, every place where the construction of pair data for a new column throws", "why_tests_cant": "The assertions are compiled away in the build that is shipped and the tests exercise a few queues; that an assertion holds after every history, and that the code within #ifdef MATHIC_DEBUG does not change the queue, is about all histories.", "anchors": ["src/mathic/PairQueue.h: addColumnDescending, pop, retireIndex, topPair, topPairData, empty, retired, Column::create, Column::incrementRowIndex", "src/mathic/TourTree.h: isValid"]}
{"id": "C89", "title": "A debug build of PairQueue fails an assertion if it is not used as documented", "statement": "In a debug build in which nothing throws, addColumnDescending fails an assertion if a row is not below the new column, is retired, or the rows are not in weakly descending order; pop, topPair and topPairData fail one if the queue is empty; retireIndex fails one if it is not supported, the index does not exist or is retired already; retired fails one if the index does not exist.", "quantifier": "for every lawful configuration, every history of legal calls, every call that is not allowed", "why_tests_cant": "A test shows that one wrong call is caught; the order check compares only neighbours, and that this catches every list that is not in order rests on the transitivity of the order.", "anchors": ["src/mathic/PairQueue.h: 391-420, 430-449, 546-551, 579-632, 640-656"]}
{"id": "C90", "title": "The order check of a debug build of PairQueue pairs construction and destruction of pair data", "statement": "In Column::create of a debug build, the check of the order of the rows hands each pair data that it has constructed to destructPairData once, with the column and row that it was constructed with, whether a user function throws or not.", "quantifier": "for every configuration, every list of rows, every place where a user function throws", "why_tests_cant": "The wrong row is handed to destructPairData only in debug builds and matters only to configurations that define their own destructPairData; a leak needs an exception out of compare.", "anchors": ["src/mathic/PairQueue.h: 391-420"]}
{"id": "C91", "title": "A debug build of HashTable does what a release build does", "statement": "In a debug build, a history of calls of HashTable in which exceptions are caught ends as in a release build: no MATHIC_ASSERT fails and the answers are the same.", "quantifier": "for every lawful configuration, every size of the table, every history of insert, lookup and accesses through handles, every place where a call throws", "why_tests_cant": "computeNodeCount() == mNodeCount is checked on the tables that the tests happen to build, where nothing throws; that the count is right after every history, also after exceptions, is about all histories.", "anchors": ["src/mathic/HashTable.h: insert (180, 219), lookup (228), grow (266, 304), computeNodeCount, makeNode"]}
{"id": "C92", "title": "A debug build of DivList does what a release build does", "statement": "If the ratio for rebuilds is positive or rebuilds are not automatic, no MATHIC_ASSERT of DivList fails in any history, and all answers and contents are those of a release build; with automatic rebuilds and a ratio that is not positive the constructor fails an assertion.", "quantifier": "for every configuration, storage as array or linked list, sorted or not, with or without divmasks, every history of calls", "why_tests_cant": "The assertions compare counts of removed elements with sizes of the list after a removal; tests see a few lists, the claim is about all of them.", "anchors": ["src/mathic/DivList.h: removeMultiples for arrays (248) and linked lists (273), DivList::removeMultiples (438), resetNumberOfChangesTillRebuild (592)"]}
{"id": "C93", "title": "A debug build of NameFactory refuses a name that is registered twice", "statement": "Registrations in a debug build fail an assertion if and only if a name is registered twice; otherwise the factory is that of a release build and no factory function is called. Looking for a name by prefix never fails an assertion.", "quantifier": "for every list of registrations, every factory, every prefix", "why_tests_cant": "The tests register a few different names; that every duplicate is caught and no other registration is concerns all lists of registrations and functions.", "anchors": ["src/mathic/NameFactory.h: registerProduct (117-122), createNullOnUnknown, uniqueNameWithPrefix (196)"]}
{"id": "C94", "title": "Debug builds of BitTriangle catch every bad index, and those of display never stop", "statement": "A debug build of BitTriangle fails an assertion exactly in the calls on a pair of indices that does not exist, nothing is undefined, and otherwise it does what a release build does. No assertion of display fails, whatever the message.", "quantifier": "for every history of calls and every pair of indices; for every message and prefix", "why_tests_cant": "A failing assertion ends the test program, so that tests do not try bad indices; messages can be any string.", "anchors": ["src/mathic/BitTriangle.h: bit, bitUnordered, setBit, setBitUnordered (41-75)", "src/mathic/display.cpp: Printer (21, 45-47, 56), printWord (81)"]}
{"id": "C95", "title": "A debug build of ColumnPrinter prints each row as one line or stops", "statement": "A debug build fails an assertion exactly if a column that does not exist is named or all columns are padded with newlines; the assertion in print never fails; and if the calls get through, with no newline in a prefix or suffix and no NUL in a text, then each printed row is one line.", "quantifier": "for every number of columns and every history of calls", "why_tests_cant": "The tests print a few tables; the claim is about every history and every padding character.", "anchors": ["src/mathic/ColumnPrinter.cpp: operator[] (50), repeatToEndOfLine (55, 60), print (142)"]}
{"id": "C96", "title": "forAll of the priority queues shows each entry once until told to stop", "statement": "forAll of Heap, TourTree and Geobucket ends, reads nothing but entries held, and shows the visitor the entries held, each once, up to and including the first at which it answers false or throws; nothing is changed. The forAll of TourTree that hands out references changes just the entries shown, and if the visitor lets no entry become less than another that it was not less than, all later calls are those of a max priority queue with the new entries.", "quantifier": "for every history before the visit, also an empty queue; nodes that are indices or byte offsets; every visitor, whose answers and edits may depend on all that it has been shown; every later history", "why_tests_cant": "The visitors in the code base go on to the end; the loops compare with != and the queues have any size and layout, and a visitor may stop, throw or write at any place.", "anchors": ["src/mathic/Heap.h: forAll (44-50)", "src/mathic/TourTree.h: forAll (36-52)", "src/mathic/Geobucket.h: forAll (154-166)"]}
{"id": "C97", "title": "The memory of the priority queues is proportional to the largest number of entries held", "statement": "After every history of calls, with m the largest number of entries on the way: Heap has an array for the least of 16, 32, 64, ... entries that is at least m, none if m is 0, and has copied less than 2m entries to larger arrays; TourTree has room for the least of 16, 32, 64, ... nodes that is at least 2m, and half as many players and two more; so getMemoryUse is that of 16 entries or linear in m. The memory of Geobucket is at most six times its largest bucket (with a logarithmic factor for buckets of one size), which is the least size or less than geoBase * insertFactor for each entry ever pushed.", "quantifier": "for every configuration, also orders that are not lawful for Heap and TourTree; every history of push, range push, top, pop, decreaseTop and clear; every size of entries and pointers", "why_tests_cant": "Tests do not look at capacities; a queue that grows too early or never reuses its array would give the right entries all the same.", "anchors": ["src/mathic/ComTree.h: pushBack (202-206), increaseCapacity (312-332), getMemoryUse (128-131)", "src/mathic/Heap.h: getMemoryUse (84-87)", "src/mathic/TourTree.h: getMemoryUse (89-93), reallocate", "src/mathic/Geobucket.h: addBucket, getMemoryUse (785-790)"]}
{"id": "C98", "title": "Queries of the divisor finders ask the configuration about each entry at most once", "statement": "findDivisor, findAllDivisors and findAllMultiples of DivList call divides of the configuration about elements in the order of the list, each at most once; those of KDTree about each entry of the tree at most once, besides one question of findDivisor about the entry in the cache. With masks there is no question about a pair that the masks rule out. findDivisor asks nothing after a divisor. No other answer of divides has an influence: with another divides that gives the same answers to these questions, the query has the same result. Each question matters: if divides holds of this entry alone, findDivisor returns it and the enumerations put it out. The enumerations put out the entries for which the answer is yes, and ask nothing after the output has said that it wants no more.", "quantifier": "for every lawful configuration (array and linked list, sorted or not, binary and packed trees, any leaf size, with and without masks and cache), every reachable state, every monomial, every output that goes on, stops or throws, every other divides", "why_tests_cant": "Tests compare results; a search that visits a leaf or a pointer left on the stack twice, or asks before it looks at the masks, gives the right results.", "anchors": ["src/mathic/DivList.h: findDivisor (466-498), findAllDivisors (506-518), findAllMultiples (520-530), findDivisorSorted (325-356), findAllDivisorsSorted (358-389)", "src/mathic/KDEntryArray.h: findDivisor, findAllDivisors, findAllMultiples (348-432)", "src/mathic/BinaryKDTree.h: 423-530", "src/mathic/PackedKDTree.h: 396-496", "src/mathic/KDTree.h: findDivisor (180-193)", "src/mathic/DivMask.h: Extender::divides (405-423)"]}
{"id": "C99", "title": "The name of a data structure tells its configuration", "statement": "getName of Heap, TourTree and Geobucket and name of PairQueue give the same text exactly for the same settings. Names of different class templates differ. DivLists on the same entries with the same name behave alike on all histories, and KDTrees on the same entries with the same name put out the same. Two models of the simulators have the same name only if their data structures do and their own options agree, so no two rows of the tables are mixed up.", "quantifier": "for all settings of all configurations: all numbers, all combinations of flags, all texts of the rebuild ratio without a slash", "why_tests_cant": "There are unboundedly many settings; two that give the same text are found only by chance, for example numbers that run together.", "anchors": ["src/mathic/Heap.h: getName (89-95)", "src/mathic/TourTree.h: getName (100-105)", "src/mathic/StlSet.h: getName (21)", "src/mathic/Geobucket.h: getName (325-341)", "src/mathic/PairQueue.h: name (617-620)", "src/mathic/DivList.h: getName (556-568)", "src/mathic/KDTree.h: getName (310-326), reportChanges (328-363)", "src/pqsim/Model.h: getName (44-48)", "src/pqsim/pqMain.cpp: 50-60", "src/divsim/DivListModel.h: getName (188-193)", "src/divsim/KDTreeModel.h: getName (187-191)"]}
{"id": "C100", "title": "print of the priority queues shows their contents", "statement": "The text that print writes tells what is in the queue: for Heap a row for each depth of the tree, each with the number of its first node, all entries in order; for TourTree the same for its players with their entries; for StlSet all entries in the order of the set; for Geobucket of each bucket the size, the capacity and all entries if there are at most four, else the first two and the last two. Two queues of the same kind and settings print the same text only if what is shown is the same. Opening and closing braces are balanced.", "quantifier": "for all states, of any size, of all configurations, with fast indices or without, for all ways to write entries that keep different entries apart and use none of the separators", "why_tests_cant": "Nothing tests print; the shape of the text depends on the size of the tree or bucket, which is unbounded.", "anchors": ["src/mathic/ComTree.h: print (276-285)", "src/mathic/Heap.h: print (135-138)", "src/mathic/TourTree.h: print (216-219)", "src/mathic/StlSet.h: print (36-42)", "src/mathic/Geobucket.h: print (486-501)"]}
{"id": "C101", "title": "An exception in removeMultiples does not spoil a DivList", "statement": "removeMultiples hands each multiple to an output object of the client and asks the configuration whether the monomial divides. If either throws and the client catches it, the list has all elements that have not been put out, each once and in order, and all later calls do what they should. Without exceptions the calls do what they do without faults.", "quantifier": "for all histories of calls of any length, of all lawful configurations, and all places at which the output object or divides may throw", "why_tests_cant": "The output objects and monomials of the tests never throw; an exception may come at any of an unbounded number of elements, after any history.", "anchors": ["src/mathic/DivList.h: removeMultiples on a vector (224-251)", "src/mathic/DivList.h: removeMultiples on a list (253-275)", "src/mathic/DivList.h: DivList::removeMultiples (428-447)"]}
{"id": "C102", "title": "The verdict of pqsim tells the truth about any queue", "statement": "Each simulation that is made passes a queue exactly if the queue returned, on all calls of the simulation and of its repeats, what a set of values returns. It accuses a queue of a value exactly if the queue returned what a set returns up to a pop, and that value, which is not the maximum of the set, at it. It is undefined exactly if a call of the queue is at which the queue was right so far and a set is defined.", "quantifier": "for all queues, right or wrong, all parameters of the simulations, all random numbers drawn and any number of repeats", "why_tests_cant": "The queues that pqsim runs on are right, so that its verdicts on wrong ones are never seen; the histories are of unbounded length.", "anchors": ["src/pqsim/Simulator.h: Simulator::run (60-101)", "src/pqsim/Simulator.cpp: SimBuilder (25-140)", "src/pqsim/Simulator.cpp: dupSpans (143-191)", "src/pqsim/Simulator.cpp: orderSpans (193-223)", "src/pqsim/Simulator.cpp: randomSpans (225-250)"]}
{"id": "C103", "title": "Exceptions in rebuilds of DivList leave a list that can be used", "statement": "If the configuration throws while masks are rebuilt, by a call of rebuild, of insert, or of insert with a range, and the client catches the exception, then no entry that was in the list is lost, an entry being inserted is in at its place, searches give no false divisors, removals remove no entry that is no multiple, and all calls do what they should.", "quantifier": "for all lawful configurations, histories of calls, places of the exception in the rebuild and calls that follow", "why_tests_cant": "No test has a configuration that throws; the place of the exception and the number of entries are unbounded.", "anchors": ["src/mathic/DivMask.h: Calculator<C,true>::rebuild (204-310)", "src/mathic/DivList.h: DivList::insert (399-427)", "src/mathic/DivList.h: DivList::rebuild (575-586)", "src/mathic/DivList.h: DivList::reportChanges (598-608)"]}
{"id": "C104", "title": "A push into a geobucket whose comparison throws has no effect", "statement": "If the comparison of the configuration throws while push of one entry looks for the place of the entry, and the client catches the exception, then the geobucket is as before the call: it holds the same entries, size and empty tell their number, and all later calls return what they would have returned without that push.", "quantifier": "for all lawful configurations with sane parameters, histories of calls and of pushes that throw, and places of the exception in the search", "why_tests_cant": "No test has a configuration that throws; the histories and the sizes of buckets are unbounded.", "anchors": ["src/mathic/Geobucket.h: Geobucket::push (343-399)", "src/mathic/Geobucket.h: Geobucket::size, empty (470-484)"]}
{"id": "C105", "title": "StlSet hands out equivalent entries in the order of their pushes", "statement": "Of the entries of an StlSet of which none is less than another, the one pushed first is popped first: among the entries equivalent to any given entry, those popped, followed by those still held in the order of print, are those pushed in the order of the pushes, where a range counts as pushed from its begin to its end.", "quantifier": "for all configurations with a strict weak order, all histories of push, push of a range, top and pop, and all entries", "why_tests_cant": "Tests compare the values popped, and values of equivalent entries are the same there; the order of pushes among equivalent entries is not observed.", "anchors": ["src/mathic/StlSet.h: StlSet::push, pop, top (22-34)", "src/mathic/StlSet.h: StlSet::Cmp (57-63)"]}
