{"id": "C01", "title": "Growing hash set behaves as a mathematical set", "statement": "For a growing LP_Set constructed with an initial size of at least 2, after any sequence of insert(k) calls with non-zero keys: insert(k) returns true exactly when k was not inserted before, contains(k)/count(k) report true exactly for the keys inserted so far, size() is the number of distinct keys inserted, and every call terminates.", "quantifier": "all odd hash multipliers, all initial sizes >= 2, all finite sequences of non-zero keys, all queried keys", "why_tests_cant": "Correctness of linear probing depends on every collision pattern, wrap-around position and growth point; tests see a few hash seeds and key sequences.", "anchors": ["include/datastructures/LP_Set.hxx:LP_Set::LP_Set", "include/datastructures/LP_Set.hxx:LP_Set::insert", "include/datastructures/LP_Set.hxx:LP_Set::contains", "include/datastructures/LP_Set.hxx:LP_Set::rehash(size_t)"]}
{"id": "C02", "title": "A default constructed set can be queried", "statement": "A default constructed growing LP_Set answers contains(k) for every key after any number of insertions (the call returns).", "quantifier": "all keys, all sizes of the set including one and two elements, all hash multipliers", "why_tests_cant": "Non-termination on a full table shows up only for absent keys at particular sizes; a test that hangs is a timeout, not a proof either way.", "anchors": ["include/datastructures/LP_Set.hxx:LP_Set::LP_Set", "include/datastructures/LP_Set.hxx:LP_Set::insert", "include/datastructures/LP_Set.hxx:LP_Set::contains"]}
{"id": "C03", "title": "Merging two hash sets yields their union", "statement": "After a.merge(b) a contains exactly the keys that were in a or in b, size() is the number of distinct keys of the union, and no key is stored twice.", "quantifier": "all reachable growing sets a and b (any capacities, hash multipliers and collision layouts)", "why_tests_cant": "Ranges over every pair of table layouts, including keys present in both tables and tables with different hash functions.", "anchors": ["include/datastructures/LP_Set.hxx:LP_Set::merge", "include/datastructures/LP_Set.hxx:LP_Set::rehash(size_t)"]}
{"id": "C04", "title": "Filtering a hash set keeps exactly the requested keys", "statement": "After a.filter(F) a contains exactly its former keys that are not in F; after a.merge(b,F,cmp) a contains exactly the keys x of a or b with F.count(x)==cmp.", "quantifier": "all sets a, b, all filter sets F, both values of cmp, every key", "why_tests_cant": "Depends on both operands, on the flag and on rehash layouts; tests use cmp's default only.", "anchors": ["include/datastructures/LP_Set.hxx:LP_Set::filter", "include/datastructures/LP_Set.hxx:LP_Set::rehash(size_t,Set,bool)", "include/datastructures/LP_Set.hxx:LP_Set::merge(LP_Set&&,Set,bool)"]}
{"id": "C05", "title": "Iterating a hash container visits each stored key once", "statement": "Iterating begin()..end() over a hash set yields every stored key exactly once and nothing else, and size() equals the number of iterations.", "quantifier": "all table contents and capacities", "why_tests_cant": "Any single example cannot cover all patterns of free and occupied slots (leading, trailing, adjacent gaps).", "anchors": ["include/datastructures/LP_Set.hxx:_detail::iterator::_advance", "include/datastructures/LP_Set.hxx:LP_Set::begin", "include/datastructures/LP_Set.hxx:LP_Set::end"]}
{"id": "C06", "title": "Parallel range splitting neither loses nor duplicates elements", "statement": "However a TBB scheduler splits the range() of a hash container (any binary split tree permitted by is_divisible), iterating all the resulting leaf ranges visits every element of the container exactly once.", "quantifier": "all containers, all grain sizes, all split trees / schedules", "why_tests_cant": "The split tree depends on the TBB scheduler and on the load; there are exponentially many of them.", "anchors": ["include/datastructures/LP_Set.hxx:_detail::range_type", "include/datastructures/LP_Set.hxx:_detail::iterator::half"]}
{"id": "C07", "title": "Hash map get returns the last value inserted", "statement": "For a growing LP_Map, after any sequence of insert(k,v) with non-zero keys, get(k) terminates and returns the value of the last insertion for k, and 0 if k was never inserted; insert returns true exactly for new keys.", "quantifier": "all hash multipliers, initial sizes, insertion sequences and queried keys", "why_tests_cant": "Depends on every collision pattern and on the growth schedule of the table.", "anchors": ["include/datastructures/LP_Map.hxx:LP_Map::insert", "include/datastructures/LP_Map.hxx:LP_Map::get", "include/datastructures/LP_Map.hxx:LP_Map::rehash"]}
{"id": "C08", "title": "Hash map membership agrees with insertion", "statement": "LP_Map::contains(k) returns true exactly when some insert(k,v) happened before.", "quantifier": "all keys, all values including 0, all insertion histories", "why_tests_cant": "Ranges over all stored values; the failing value (0) is easy to leave out of tests.", "anchors": ["include/datastructures/LP_Map.hxx:LP_Map::contains", "include/datastructures/LP_Map.hxx:LP_Map::get"]}
{"id": "C09", "title": "Multimap lookup returns exactly the values stored under the key", "statement": "LP_MultiMap::get(k) returns an iterator range that enumerates exactly the values inserted under k, each as often as it was inserted.", "quantifier": "all hash multipliers, capacities, insertion sequences and queried keys", "why_tests_cant": "Chains wrapping around the end of the table and chains of foreign keys between equal keys occur only for particular layouts.", "anchors": ["include/datastructures/LP_MultiMap.hxx:LP_MultiMap::insert", "include/datastructures/LP_MultiMap.hxx:LP_MultiMap::get", "include/datastructures/LP_MultiMap.hxx:filtered_iterator"]}
{"id": "C10", "title": "Concurrent insertion into the lock-free set is linearizable", "statement": "If any number of threads concurrently insert non-zero keys into one Concurrent_LP_Set, then at quiescence: for each key at most one insert returned true; a key is contained exactly if some insert of it returned true; every insert that returned false did so when the key was already present; and no key occupies two slots.", "quantifier": "all numbers of threads, all programs of inserts, all interleavings of the atomic loads and compare-and-swaps", "why_tests_cant": "The number of interleavings is astronomically large; races are lost or won depending on timing.", "anchors": ["include/datastructures/LP_Set.hxx:Concurrent_LP_Set::insert", "include/datastructures/LP_Set.hxx:Concurrent_LP_Set::contains"]}
{"id": "C11", "title": "A fixed concurrent set never rejects keys while there is room", "statement": "If the number of distinct keys that threads insert into a Concurrent_LP_Set<K,false> does not exceed its capacity, no insert reports Full and each insert completes within capacity many probe steps plus retries caused by other threads' successful insertions.", "quantifier": "all interleavings, all key sets up to the capacity, all hash multipliers", "why_tests_cant": "Needs a bound over every schedule.", "anchors": ["include/datastructures/LP_Set.hxx:Concurrent_LP_Set::insert", "src/lib/Partitioner.cpp:CyclePartitioner::partition"]}
{"id": "C12", "title": "Lookup concurrent with insertion never misses a completed insert", "statement": "A contains(k) on a Concurrent_LP_Set that starts after an insert(k) has returned true or false returns true, whatever other inserts run concurrently.", "quantifier": "all interleavings, all keys, all other threads' programs", "why_tests_cant": "Depends on the relative timing of a reader and several writers.", "anchors": ["include/datastructures/LP_Set.hxx:Concurrent_LP_Set::contains", "include/datastructures/LP_Set.hxx:Concurrent_LP_Set::insert"]}
{"id": "C13", "title": "Concurrent map never exposes a value that was not inserted", "statement": "A get(k) on a Concurrent_LP_Map running concurrently with inserts returns 0 (absent) or a value passed to some insert(k,.).", "quantifier": "all interleavings of readers and writers", "why_tests_cant": "The window between publishing the key and storing the value is a few instructions long.", "anchors": ["include/datastructures/LP_Map.hxx:Concurrent_LP_Map::insert", "include/datastructures/LP_Map.hxx:Concurrent_LP_Map::get"]}
{"id": "C14", "title": "Concurrent multimap stores every pair exactly once", "statement": "At quiescence a Concurrent_LP_MultiMap contains exactly one entry for each insert(k,v) that returned true, and never reports true without storing the pair.", "quantifier": "all interleavings of inserting threads", "why_tests_cant": "Lost updates depend on the schedule.", "anchors": ["include/datastructures/LP_MultiMap.hxx:Concurrent_LP_MultiMap::insert"]}
{"id": "C15", "title": "A growing concurrent table never loses an acknowledged insertion", "statement": "If handle.insert(k) on a GrowingHashTable handle returned true (or false for already present), then after all threads are quiescent every handle finds k.", "quantifier": "all numbers of threads and handles, all interleavings of insertion, growth and migration", "why_tests_cant": "The failure needs a thread to be pre-empted between the epoch check and its compare-and-swap while others grow the table.", "anchors": ["include/datastructures/Growing_LP.hxx:GrowingHashTableHandle::insert", "include/datastructures/Growing_LP.hxx:GrowingHashTableHandle::grow"]}
{"id": "C16", "title": "Block-wise cooperative migration copies every slot exactly once", "statement": "When any number of helper threads migrate an old table into its successor by claiming blocks of 256 slots with fetch_add, every slot of the old table is copied by exactly one helper and, once the helper count returned to zero after all blocks were claimed, the new table contains exactly the keys of the old one.", "quantifier": "all table sizes, all numbers of helpers, all interleavings", "why_tests_cant": "Claims and helper counts interleave arbitrarily.", "anchors": ["include/datastructures/Growing_LP.hxx:GrowingHashTableHandle::grow", "include/datastructures/LP_Set.hxx:Concurrent_LP_Set::_migrate"]}
{"id": "C17", "title": "Bulk merge of concurrent sets produces the filtered union", "statement": "unsafe_merge(other, filter) leaves a set containing exactly the keys of both operands that are not in the filter, with the item count equal to the number of distinct keys.", "quantifier": "all contents of both tables and of the filter, all parallel schedules of the copying loops", "why_tests_cant": "Ranges over all layouts and schedules.", "anchors": ["include/datastructures/LP_Set.hxx:Concurrent_LP_Set::unsafe_merge"]}
{"id": "C18", "title": "Bit set tracks membership and cardinality", "statement": "After any sequence of insert/testAndSet and testAndUnset on ids inside [lower, upper), isSet/contains(i) is true exactly for ids whose last operation set them, the return value of each operation tells whether it changed the bit, and size() is the number of set bits.", "quantifier": "all bounds, all operation sequences, all ids inside the bounds", "why_tests_cant": "Block and bit arithmetic must be right for every id modulo 32 and every lower bound.", "anchors": ["include/datastructures/Bit_Set.hxx:Bit_Set::testAndSet", "include/datastructures/Bit_Set.hxx:Bit_Set::testAndUnset", "include/datastructures/Bit_Set.hxx:Bit_Set::isSet", "include/datastructures/Bit_Set.hxx:Bit_Set::size"]}
{"id": "C19", "title": "Bit set algebra", "statement": "merge(other) yields the union over the hull of both ranges; filter(f) removes exactly the ids in f; afterwards size() is the number of set bits.", "quantifier": "all pairs of bit sets with arbitrary, possibly disjoint or nested, ranges", "why_tests_cant": "Relative positions of the two ranges give many cases (nested, overlapping, disjoint).", "anchors": ["include/datastructures/Bit_Set.hxx:Bit_Set::merge", "include/datastructures/Bit_Set.hxx:Bit_Set::filter", "include/datastructures/Bit_Set.hxx:Bit_Set::resize"]}
{"id": "C20", "title": "Bit set batch construction", "statement": "batchSet(from,to) sets exactly the ids in [from,to), keeps all other bits, and has no undefined behaviour.", "quantifier": "all from <= to inside the bounds", "why_tests_cant": "The failing cases are the block-aligned ends, one in 32.", "anchors": ["include/datastructures/Bit_Set.hxx:Bit_Set::batchSet"]}
{"id": "C21", "title": "Bit set iteration enumerates the set bits in increasing order", "statement": "Iterating begin()..end() yields exactly the set ids in ascending order.", "quantifier": "all bit patterns and ranges", "why_tests_cant": "Whole-block skipping has to agree with bit-wise stepping on every pattern.", "anchors": ["include/datastructures/Bit_Set.hxx:_detail::bitset iterator _advance"]}
{"id": "C22", "title": "Concurrent test-and-set has exactly one winner", "statement": "If several threads call testAndSet(i) on a Concurrent_Bit_Set for a bit that is initially clear and never cleared, exactly one call reports that it set the bit, other bits of the same block are unaffected, and at quiescence size() equals the number of set bits.", "quantifier": "all thread counts, all interleavings of the CAS loops", "why_tests_cant": "Schedules cannot be enumerated by tests.", "anchors": ["include/datastructures/Bit_Set.hxx:Concurrent_Bit_Set::testAndSet", "include/datastructures/Bit_Set.hxx:Concurrent_Bit_Set::testAndUnset"]}
{"id": "C23", "title": "Identifier allocation never hands out a live id twice", "statement": "In any sequence of getId and releaseId calls in which only live ids are released, the ids currently handed out are pairwise distinct and smaller than maxId(); after disable() released ids are never reused.", "quantifier": "all call sequences", "why_tests_cant": "Reuse order depends on the history.", "anchors": ["include/utils/IndexHandler.h:IndexHandler::getId", "include/utils/IndexHandler.h:IndexHandler::releaseId"]}
{"id": "C24", "title": "Concurrent identifier allocation is unique", "statement": "With any number of threads concurrently allocating and releasing ids through Concurrent_IndexHandler, two live ids are never equal.", "quantifier": "all interleavings of atomic increments and queue operations", "why_tests_cant": "Schedules cannot be enumerated by tests.", "anchors": ["include/utils/IndexHandler.h:Concurrent_IndexHandler"]}
{"id": "C25", "title": "Block lookup finds the slot of an id whatever blocks were merged", "statement": "For a BlockedArray2 built by any sequence of addBlock and merge with pairwise disjoint id ranges, at(id, hint) returns the element stored for id for every id in some block, independently of the hint; contains(id, hint) is true exactly for ids in some block.", "quantifier": "all block layouts (any number, order of insertion, gaps between blocks), all ids, all hint values", "why_tests_cant": "Binary search boundary errors show only for particular layouts and ids.", "anchors": ["include/datastructures/BlockedArray2.hxx:BlockedArray2::at", "include/datastructures/BlockedArray2.hxx:BlockedArray2::_findBlock", "include/datastructures/BlockedArray2.hxx:BlockedArray2::contains", "include/datastructures/BlockedArray2.hxx:BlockedArray2::addBlock", "include/datastructures/BlockedArray2.hxx:BlockedArray2::merge"]}
{"id": "C26", "title": "Block iteration visits every element once, in id order", "statement": "Iterating a BlockedArray2 yields the ids of all blocks once each in ascending order; iterating dSimplices yields exactly the valid (not deleted) simplices.", "quantifier": "all block layouts and all validity patterns", "why_tests_cant": "Gaps at block ends and starts give many corner cases.", "anchors": ["include/datastructures/BlockedArray2.hxx:_detail::block_iterator", "include/datastructures/BlockedArray2.hxx:_detail::filtered_block_iterator", "include/Geometry.h:dSimplices::begin"]}
{"id": "C27", "title": "Bounds-checked access throws for every index past the end", "statement": "BlockedArray::at(idx) throws std::out_of_range for every idx >= capacity and returns the element otherwise.", "quantifier": "all indices and array sizes", "why_tests_cant": "Off-by-one at a single index per size.", "anchors": ["include/datastructures/BlockedArray.hxx:BlockedArray::at"]}
{"id": "C28", "title": "Sorting vertices keeps each neighbour attached to its vertex", "statement": "After static_insertion_sort_with_data(keys, data) the keys are in ascending order and the sequence of (key,data) pairs is a permutation of the input pairs; equal keys keep their order.", "quantifier": "all arrays of every length below 2^15", "why_tests_cant": "All permutations of all lengths cannot be tested.", "anchors": ["include/utils/StaticSort.h:static_insertion_sort_with_data", "include/utils/StaticSort.h:static_insertion_sort", "include/Geometry.h:dSimplex::sortVertices"]}
{"id": "C29", "title": "Power-of-two helpers", "statement": "For 64-bit x: isPow2(x) iff x is a power of two; nextPow2(x) is the least power of two >= x for 1 <= x <= 2^63; log2(x) is the floor of the binary logarithm for x>=1; popcount(x) is the number of one bits; isPowN(x,n) iff x is a power of n; logN(x, 2^k) is floor(log_{2^k} x).", "quantifier": "all machine words", "why_tests_cant": "2^64 inputs.", "anchors": ["include/utils/Misc.h"]}
{"id": "C30", "title": "String splitting", "statement": "split(fields, line, sep) returns the fields between separators in order; joining them with the separator gives back the line (up to one trailing separator).", "quantifier": "all strings and separators", "why_tests_cant": "Infinite input space; corner cases at empty fields and trailing separators.", "anchors": ["include/utils/Misc.h:split", "include/Geometry.h:dPoints::loadFromFile"]}
{"id": "C31", "title": "Simplex vertex queries agree with the vertex set", "statement": "For a simplex with ascending vertices, contains(p) iff p is one of its vertices, countSharedVertices(a) is the size of the intersection of the two vertex sets, and isNeighbor(a) iff they share exactly D vertices.", "quantifier": "all dimensions D, all pairs of sorted vertex arrays", "why_tests_cant": "Merge-style loops with simultaneous advance have to be right for every interleaving of the two arrays.", "anchors": ["include/Geometry.h:dSimplex::contains", "include/Geometry.h:dSimplex::countSharedVertices", "include/Geometry.h:dSimplex::isNeighbor"]}
{"id": "C32", "title": "Fingerprints never separate equal simplices or faces", "statement": "genFingerprint does not depend on vertex order; equalVertices(a) iff the sorted vertex arrays are equal; two simplices sharing a facet have the same faceFingerprint for it; a face fingerprint is never 0; no shift is out of range.", "quantifier": "all vertex ids (including ids divisible by 32), all dimensions", "why_tests_cant": "Hash equality is needed for all 2^64 ids; the undefined shift occurs for ids = 0 mod 32 only.", "anchors": ["include/Geometry.h:dSimplex::genFingerprint", "include/Geometry.h:dSimplex::faceFingerprint", "include/Geometry.h:dSimplex::_rol", "include/Geometry.h:dSimplex::equalVertices"]}
{"id": "C33", "title": "Simplex equality is an equivalence that respects vertices", "statement": "operator== on simplices is reflexive, symmetric and transitive, and equalNeighbors(a) holds iff the neighbour arrays are equal.", "quantifier": "all triples of simplices including those with invalid id", "why_tests_cant": "Transitivity ranges over triples.", "anchors": ["include/Geometry.h:dSimplex::operator==", "include/Geometry.h:dSimplex::equalNeighbors"]}
{"id": "C34", "title": "Finite and infinite point ids partition the id space", "statement": "isFinite(i) is false for exactly the 2^D largest ids; infIndex maps them bijectively onto 0..2^D-1; dPoints::contains(i) implies that access to points[i] is in bounds, and 0 (relative to the offset) is never contained.", "quantifier": "all 64-bit ids, all dimensions below 31, all container sizes and offsets", "why_tests_cant": "2^64 ids.", "anchors": ["include/Geometry.h:dPoint::isFinite", "include/Geometry.h:dPoint::infIndex", "include/Geometry.h:dPoints::contains", "include/datastructures/VectorAdapter2.hxx:VectorAdapter2::at"]}
{"id": "C35", "title": "Sphere/box tests are exact", "statement": "box.intersects(s) iff some point of the box has distance at most r from the centre; box.contains(s) iff every point at distance less than r from the centre lies in the box; box.contains(p)/contains(b) are membership/inclusion (exact arithmetic, r>=0).", "quantifier": "all dimensions, boxes and spheres over an ordered field", "why_tests_cant": "Continuum of inputs; early exit and corner regions.", "anchors": ["include/Geometry.h:dBox::intersects", "include/Geometry.h:dBox::contains"]}
{"id": "C36", "title": "Box subtraction", "statement": "If b is contained in a and agrees with a in all but one side, then a-b is the box of the remaining part: its interior is disjoint from b and a is the union of b and a-b.", "quantifier": "all dimensions and boxes", "why_tests_cant": "Continuum of inputs.", "anchors": ["include/Geometry.h:dBox::operator-"]}
{"id": "C37", "title": "Circumsphere is equidistant from all vertices", "statement": "For affinely independent vertices in 2D and 3D, circumsphere returns a centre equidistant from all vertices and a radius whose square is that squared distance (exact arithmetic).", "quantifier": "all non-degenerate triangles and tetrahedra over a field", "why_tests_cant": "Polynomial identity of high degree; rounding hides errors in tests.", "anchors": ["src/lib/Geometry.cpp:GeometryCore<2>::circumsphere", "src/lib/Geometry.cpp:GeometryCore<3>::circumsphere"]}
{"id": "C38", "title": "inSphere agrees with the distance to the circumcentre", "statement": "inSphere(p, simplex) is true iff p is at distance at most the circumradius from the circumcentre (non-degenerate simplex, exact predicates).", "quantifier": "all points and simplices in 2D and 3D", "why_tests_cant": "Continuum of inputs.", "anchors": ["src/lib/Geometry.cpp:GeometryCore::inSphere"]}
{"id": "C39", "title": "inSimplex decides membership in the simplex", "statement": "For non-degenerate simplices inSimplex(p) iff p is a convex combination of the vertices (exact arithmetic).", "quantifier": "all points and simplices in 2D and 3D", "why_tests_cant": "Continuum of inputs.", "anchors": ["src/lib/Geometry.cpp:GeometryCore<2>::inSimplex", "src/lib/Geometry.cpp:GeometryCore<3>::inSimplex"]}
{"id": "C40", "title": "sqDistanceToFace is the squared distance to the face's hyperplane", "statement": "sqDistanceToFace(p, face) equals the squared Euclidean distance of p from the hyperplane of the face.", "quantifier": "all points and faces in 2D and 3D", "why_tests_cant": "Continuum of inputs; a test with unit normals cannot see a missing normalisation.", "anchors": ["src/lib/Geometry.cpp:GeometryCore::sqDistanceToFace", "include/Geometry.h:dSimplices::findNearestSimplex"]}
{"id": "C41", "title": "Point statistics are the tight bounding box", "statement": "getPointStats / getPointStatsSeq return in every dimension the minimum and maximum of the coordinates of the finite points, whatever way the parallel version splits and combines them.", "quantifier": "all point sets including all-negative coordinates, all split/combine trees", "why_tests_cant": "Schedules and coordinate ranges are unbounded.", "anchors": ["include/Partitioner.h:getPointStats", "include/Partitioner.h:getPointStatsSeq", "include/Partitioner.h:dPointStats", "include/Geometry.h:dPoints::loadFromFile"]}
{"id": "C42", "title": "Each splitter partitions the finite points", "statement": "For the d-way, one-dimensional, cycle and extend splitters every finite point of the input is in exactly one part, no other finite point is in any part, and unless ignored all infinite points are in every part; part ids are the indices.", "quantifier": "all point sets, dimensions, statistics, provenance strings", "why_tests_cant": "Continuum of coordinates, including points on the splitting plane.", "anchors": ["src/lib/Partitioner.cpp:dWayPartitioner::partition", "src/lib/Partitioner.cpp:OneDimPartitioner::partition", "src/lib/Partitioner.cpp:CyclePartitioner::partition", "src/lib/Partitioner.cpp:ExtendPartitioner::partition"]}
{"id": "C43", "title": "Part bounds cover their points and only overlap on boundaries", "statement": "If the statistics are the bounding box of the points, every part's bounds contain its points, and the bounds of two different parts have disjoint interiors.", "quantifier": "all point sets and dimensions", "why_tests_cant": "Continuum of coordinates.", "anchors": ["src/lib/Partitioner.cpp"]}
{"id": "C44", "title": "Parts are strictly separable", "statement": "No finite point of one part lies in the convex hull of the finite points of another part.", "quantifier": "all point sets and dimensions", "why_tests_cant": "Continuum of coordinates; needed by the merge argument, never tested.", "anchors": ["src/lib/Partitioner.cpp"]}
{"id": "C45", "title": "Partition lookup", "statement": "Partitioning::partition(p) returns the id of the first part containing p and throws exactly if no part contains p; Partition::contains(simplex, partially) is all/any vertex membership.", "quantifier": "all partitionings, ids and simplices", "why_tests_cant": "Ranges over all structures.", "anchors": ["include/Partitioner.h:Partitioning::partition", "include/Partitioner.h:Partition::contains"]}
{"id": "C46", "title": "Edge extraction is independent of the schedule and complete", "statement": "getEdge terminates under every schedule of the parallel work list and records exactly the simplices reachable from the convex hull through simplices whose circumsphere meets another part's bounds, and their vertices plus all infinite vertices.", "quantifier": "all triangulations, neighbour graphs, intersection predicates, all schedules (processing order, duplicated work, racing marks)", "why_tests_cant": "The work list order depends on the scheduler.", "anchors": ["src/lib/DCTriangulator.cpp:DCTriangulator::getEdge", "include/LoadBalancedDCTriangulator.tpp:getEdge"]}
{"id": "C47", "title": "Work-list marks cannot be confused", "statement": "Marks of earlier passes are always smaller than the queued mark of the current pass, so no simplex is taken for visited before it is.", "quantifier": "all sequences of passes over a triangulation", "why_tests_cant": "The 8-bit counter wraps only after many passes.", "anchors": ["src/lib/DCTriangulator.cpp:getEdge", "src/lib/DCTriangulator.cpp:buildWhereUsed", "src/lib/DCTriangulator.cpp:updateNeighbors", "include/Geometry.h:dSimplices::mark"]}
{"id": "C48", "title": "The face index lists every inner neighbour of the edge", "statement": "buildWhereUsed stores for each non-deleted neighbour of an edge simplex all its face fingerprints, and nothing for other simplices.", "quantifier": "all triangulations, edge sets and schedules", "why_tests_cant": "Schedules and structures are unbounded.", "anchors": ["src/lib/DCTriangulator.cpp:buildWhereUsed"]}
{"id": "C49", "title": "Merging keeps exactly the right simplices", "statement": "mergeTriangulation returns a triangulation whose valid simplices are exactly: those of the partial triangulations not in the edge set, and those of the edge triangulation that are not contained in a single part or have the same vertices as a removed simplex.", "quantifier": "all inputs with disjoint id blocks, all fingerprint collisions, all schedules of the parallel loop", "why_tests_cant": "Fingerprint collisions and search in the sorted deleted list must be handled for all inputs.", "anchors": ["src/lib/DCTriangulator.cpp:mergeTriangulation", "include/LoadBalancedDCTriangulator.tpp:mergeTriangulation"]}
{"id": "C50", "title": "The convex hull list is exactly the set of simplices with an infinite vertex", "statement": "If the convex hull lists of the inputs are exact, the list of the merged triangulation contains exactly the ids of the valid simplices having an infinite vertex, without duplicates.", "quantifier": "all merges", "why_tests_cant": "The list is maintained incrementally through filter and merge.", "anchors": ["src/lib/DCTriangulator.cpp:mergeTriangulation", "include/Geometry.h:dSimplices::filter", "include/Geometry.h:dSimplices::merge"]}
{"id": "C51", "title": "Neighbour repair restores correct adjacency", "statement": "After updateNeighbors, for every processed simplex and every facet the neighbour entry is either infinite or the id of a valid simplex sharing exactly that facet, and it is not infinite if the face index offers such a simplex; every kept simplex that lost a neighbour is processed.", "quantifier": "all triangulations, face indices and schedules of the work list", "why_tests_cant": "Work list order and hash collisions are unbounded.", "anchors": ["src/lib/DCTriangulator.cpp:updateNeighbors", "include/LoadBalancedDCTriangulator.tpp:updateNeighbors"]}
{"id": "C52", "title": "Divide and conquer produces the Delaunay triangulation", "statement": "If the base triangulator returns the Delaunay triangulation (with its adjacency) of every point set it is given, then the divide-and-conquer triangulator returns exactly the simplices of the Delaunay triangulation of all its points (general position, exact arithmetic, infinite points enclosing the data).", "quantifier": "all dimensions, all point sets in general position, all separable partitions, all recursion depths", "why_tests_cant": "Correctness of the merge is a geometric theorem about all inputs.", "anchors": ["src/lib/DCTriangulator.cpp:DCTriangulator::_triangulate", "src/lib/DCTriangulator.cpp:mergeTriangulation", "src/lib/DCTriangulator.cpp:getEdge"]}
{"id": "C53", "title": "The recursion terminates within the configured depth", "statement": "_triangulate recurses at most recursionDepth levels, including edge recursion, and every leaf call goes to the base triangulator.", "quantifier": "all point sets, splitters, thread counts and recursion depths", "why_tests_cant": "Edge recursion re-partitions data dependent point sets.", "anchors": ["src/lib/DCTriangulator.cpp:_triangulate", "include/Partitioner.h:getRecursionDepth"]}
{"id": "C54", "title": "Infinite vertices enclose the data", "statement": "After constructing DCTriangulator with addInfiniteVertices the finite points lie strictly inside the box spanned by the 2^D infinite points.", "quantifier": "all point sets", "why_tests_cant": "Depends on the position of the data relative to the origin.", "anchors": ["src/lib/DCTriangulator.cpp:DCTriangulator::DCTriangulator", "include/LoadBalancedDCTriangulator.tpp"]}
{"id": "C55", "title": "Simplex ids of concurrently built triangulations are disjoint", "statement": "The id ranges assigned to triangulations built concurrently are pairwise disjoint and each simplex id lies in its own range.", "quantifier": "all numbers of concurrent triangulations and interleavings", "why_tests_cant": "Schedules are unbounded.", "anchors": ["src/lib/CGALTriangulator.cpp:_delaunayCgal", "include/Geometry.h:dSimplices::simplexID"]}
{"id": "C56", "title": "Cross-check reports validity only for equal triangulations", "statement": "crossCheck(real).valid is true iff both triangulations contain the same simplices (as vertex sets) with the same neighbourhood; missing/invalid list all differences.", "quantifier": "all pairs of triangulations", "why_tests_cant": "All pairs of data structures.", "anchors": ["src/lib/Geometry.cpp:dSimplices::crossCheck"]}
{"id": "C57", "title": "Verification accepts exactly the Delaunay triangulations", "statement": "verify().valid implies that neighbour relations are correct, no simplex is duplicated, all points are used and no point lies strictly inside a circumsphere; and every valid Delaunay triangulation is accepted.", "quantifier": "all triangulations and point sets", "why_tests_cant": "All data structures.", "anchors": ["src/lib/Geometry.cpp:dSimplices::verify"]}
{"id": "C58", "title": "Triangulation fingerprints ignore order", "statement": "genFingerprint of a triangulation depends only on the multiset of valid simplices' vertex sets, not on ids, storage order or block layout.", "quantifier": "all triangulations", "why_tests_cant": "All layouts.", "anchors": ["src/lib/Geometry.cpp:dSimplices::genFingerprint"]}
{"id": "C59", "title": "Grid cells tile space", "statement": "indexAt(v) is the unique cell whose half-open bounds contain v; boundsOf(indexAt(v)) contains v; centerOf(i) lies in cell i.", "quantifier": "all cell widths > 0 and all vectors over an ordered floor field", "why_tests_cant": "Continuum of inputs, negative coordinates.", "anchors": ["include/load_balancing/Grid.h"]}
{"id": "C60", "title": "AABB tree intersection equals brute force over its cells", "statement": "After inserting grid cells into an AABBTree, intersects(s) iff one of the inserted cells intersects s, and intersectingCells(s) lists exactly those cells; every insertion of a cell terminates.", "quantifier": "all dimensions, sets of cells and insertion orders, all spheres", "why_tests_cant": "Tree shape depends on the insertion order.", "anchors": ["include/datastructures/AABBTree.h"]}
{"id": "C61", "title": "Grid intersection checker never misses a point of its part", "statement": "If a sphere contains a point of a part, the part's GridIntersectionChecker reports an intersection.", "quantifier": "all point sets, cell widths and spheres", "why_tests_cant": "Fails only for points lying exactly on cell boundaries at the upper end of the part.", "anchors": ["include/load_balancing/GridIntersectionChecker.h", "include/datastructures/AABBTree.h:AABBTree::round"]}
{"id": "C62", "title": "Partition tree flattening keeps the leaves", "statement": "flatten() yields a tree whose children are exactly the original leaves in order; collect() yields a leaf with the union of all leaf ids; toOldPartitioning numbers the children consecutively and keeps their ids and bounds.", "quantifier": "all trees of any depth and arity", "why_tests_cant": "Unbounded trees.", "anchors": ["include/load_balancing/PartitionTree.h"]}
{"id": "C63", "title": "Recursive tree partitioners assign every finite point to exactly one leaf", "statement": "For OldPartitionerPartitioner, SimplePartitioner, KWaySplitter, the sample partitioners and the hyperplane bipartitioner the leaves of the resulting tree contain every finite input id exactly once and all infinite ids in each leaf.", "quantifier": "all point sets, recursion depths, samples and assignments", "why_tests_cant": "Unbounded recursion and data.", "anchors": ["include/load_balancing/OldPartitionerPartitioner.h", "include/load_balancing/SimplePartitioner.h", "include/load_balancing/kWaySplitter.h", "include/load_balancing/sample_partitioner/HyperplaneBipartitioner.h", "include/load_balancing/GridIntersectionChecker.h:GridIntersectionPartitionMaker", "include/load_balancing/BoundsIntersectionChecker.h"]}
{"id": "C64", "title": "k-way splitter produces the requested number of leaves", "statement": "For a power of two k, KWaySplitter creates exactly k leaves.", "quantifier": "all powers of two, all dimensions", "why_tests_cant": "Unbounded k.", "anchors": ["include/load_balancing/kWaySplitter.h:generateSplits"]}
{"id": "C65", "title": "Hyperplane checker never misses a point of its side", "statement": "If a sphere contains a point assigned to one side of the hyperplane, that side's HyperplaneIntersectionChecker reports an intersection (unit normal, exact arithmetic).", "quantifier": "all dimensions, planes, points and spheres", "why_tests_cant": "Continuum of inputs.", "anchors": ["include/load_balancing/HyperplaneIntersectionChecker.h", "include/load_balancing/sample_partitioner/HyperplaneBipartitioner.h"]}
{"id": "C66", "title": "Vector to box distance", "statement": "lenSquared(vecToBox(v, box)) is the squared distance of v to the box, zero iff v is inside; makeBoundingBox is the least box containing its vectors; splitBox splits a box into two covering it.", "quantifier": "all dimensions, vectors and boxes", "why_tests_cant": "Continuum of inputs.", "anchors": ["include/load_balancing/BoxUtils.h"]}
{"id": "C67", "title": "Partition centres are the means of their sample points", "statement": "findPartitionCenters returns for each partition with at least one sample point the arithmetic mean of its sample points.", "quantifier": "all samples and assignments", "why_tests_cant": "Continuum of inputs.", "anchors": ["include/load_balancing/sample_partitioner/CenterDistancePointAssigningSamplePartitioner.h:findPartitionCenters"]}
{"id": "C68", "title": "Sample graph is a faithful CSR encoding of the sample triangulation", "statement": "makeGraph returns a graph in which node i's adjacency range lists exactly the nodes j != i sharing a simplex with i, once each, with the weight of that edge; the graph is symmetric; offsets are monotone and end at the number of edges.", "quantifier": "all triangulations with fewer than 2^32 sample points, all schedules", "why_tests_cant": "Unbounded structures and schedules.", "anchors": ["include/load_balancing/sample_partitioner/Sampler.h:makeGraph"]}
{"id": "C69", "title": "Edge weights lie in the advertised range", "statement": "Mapper maps every input into [minOut, maxOut], is monotone and maps the ends of the input range to the ends of the output range.", "quantifier": "all parameters and inputs", "why_tests_cant": "Continuum of inputs; integer truncation of the slope.", "anchors": ["include/load_balancing/sample_partitioner/Sampler.h:Mapper"]}
{"id": "C70", "title": "Point generators fill every requested point", "statement": "generate(n, ...) initialises each of the points 1..n inside the bounds for every generator type.", "quantifier": "all n, all random streams, all generators", "why_tests_cant": "Fails only for n not divisible by 2^D or odd n, depending on the generator.", "anchors": ["include/utils/Generator.h"]}
{"id": "C71", "title": "Point id sets enumerate the container", "statement": "makePointIds(points) contains exactly the ids i with points.contains(i).", "quantifier": "all container sizes and offsets", "why_tests_cant": "Unbounded sizes.", "anchors": ["include/utils/MakeIds.h"]}
{"id": "C72", "title": "Serialization round-trips", "statement": "Saving and loading an LP_Set or a BlockedArray2 yields a container with the same observable contents.", "quantifier": "all containers", "why_tests_cant": "Unbounded contents.", "anchors": ["include/datastructures/LP_Set.hxx:LP_Set::save", "include/datastructures/LP_Set.hxx:LP_Set::load", "include/datastructures/BlockedArray2.hxx:BlockedArray2::load"]}
{"id": "C73", "title": "Point location returns a simplex containing the point", "statement": "findNearestSimplex terminates and, if some simplex reachable from the start simplex contains the point, returns a simplex containing it.", "quantifier": "all triangulations, points and start simplices", "why_tests_cant": "Unbounded structures; depends on the priority order.", "anchors": ["include/Geometry.h:dSimplices::findNearestSimplex"]}
{"id": "C74", "title": "Fixed-size hash sets work up to their capacity", "statement": "An LP_Set with Growing=false constructed for n keys accepts any sequence of insertions with at most n distinct non-zero keys with correct answers; lookups are correct while a slot is free; beyond the capacity insertion does not return.", "quantifier": "all sizes, hash multipliers and key sequences", "why_tests_cant": "Depends on every collision pattern and on filling the table exactly.", "anchors": ["include/datastructures/LP_Set.hxx:LP_Set::insert"]}
{"id": "C75", "title": "Hash set comparison", "statement": "operator== on two growing sets holds iff they contain the same keys.", "quantifier": "all pairs of sets built by client programs", "why_tests_cant": "Ranges over all pairs of layouts.", "anchors": ["include/datastructures/LP_Set.hxx:LP_Set::operator=="]}
{"id": "C76", "title": "Hash map merge", "statement": "LP_Map::merge(other) yields a map with the keys of both, the value from other taking precedence; merge(other, filter) additionally drops exactly the keys in filter; every lookup on the result terminates.", "quantifier": "all maps and filters built through the public interface, all hash multipliers", "why_tests_cant": "Depends on all collision layouts of three tables at once.", "anchors": ["include/datastructures/LP_Map.hxx:LP_Map::merge"]}
{"id": "C77", "title": "Parallel loops over the simplices visit every valid one exactly once", "statement": "Creating the range of a dSimplices container and splitting it any number of times always terminates without undefined behaviour, and the loops over the resulting pieces together visit every valid element exactly once.", "quantifier": "all block layouts of non-empty disjoint blocks, all validity patterns, all grain sizes, all split trees", "why_tests_cant": "The scheduler chooses the split tree; midpoints fall into gaps, deleted elements and block ends in many combinations.", "anchors": ["include/datastructures/BlockedArray2.hxx:_detail::filtered_block_iterator::half", "include/datastructures/LP_Set.hxx:_detail::range_type", "include/Geometry.h:dSimplices::range"]}
{"id": "C78", "title": "Collecting the base triangulation", "statement": "From a correct CGAL triangulation _delaunayCgal builds a simplex container whose simplices are exactly the finite cells, with sorted vertices, neighbours opposite of their vertices, an exact convex hull list and ids inside the block obtained from simplexID.", "quantifier": "all dimensions, point sets, CGAL results and id blocks", "why_tests_cant": "Vertex sorting permutes the neighbour array; ids depend on the history of the index handler.", "anchors": ["src/lib/CGALTriangulator.cpp:_delaunayCgal", "include/utils/StaticSort.h"]}
{"id": "C79", "title": "Bounds of parts computed in parallel are the bounding boxes", "statement": "When the parallel loop of the intersection partition makers has finished, the box of every non-empty part is the bounding box of its points, for every interleaving of the threads.", "quantifier": "all numbers of parts, point lists and interleavings", "why_tests_cant": "The loss of a flag of std::vector<bool> needs two threads in a window of a few instructions.", "anchors": ["include/load_balancing/GridIntersectionChecker.h:131-143", "include/load_balancing/BoundsIntersectionChecker.h:60-74"]}
{"id": "C81", "title": "Every node of a partition tree has an intersection checker", "statement": "Every node of the tree that a partitioner returns has a checker, so that copying the tree, toOldPartitioning and recursiveTriangulate dereference no null pointer.", "quantifier": "all partitioners, point sets, samples and assignments", "why_tests_cant": "Depends on the partitioner and the recursion; unbounded trees.", "anchors": ["include/load_balancing/PartitionTree.h", "include/load_balancing/sample_partitioner/NearestSamplePointAssigningSampleBipartitioner.h"]}
{"id": "C82", "title": "Checkers of partition trees never miss a point of their subtree", "statement": "For every node below the root of the tree that a partitioner returns, the node's checker reports every sphere that contains a finite point of the subtree (exact arithmetic).", "quantifier": "all partitioners, point sets containing the bounds, samples, planes and spheres", "why_tests_cant": "Continuum of spheres, unbounded trees.", "anchors": ["include/load_balancing/IntersectionChecker.h", "include/load_balancing/OldPartitionerPartitioner.h", "include/load_balancing/SimplePartitioner.h", "include/load_balancing/kWaySplitter.h", "include/load_balancing/sample_partitioner/HyperplaneBipartitioner.h", "include/load_balancing/sample_partitioner/BinaryBoxEstimatingSamplePartitioner.h"]}
{"id": "C80", "title": "Load-balanced triangulator returns the Delaunay triangulation", "statement": "For every tree that SimplePartitioner, the box estimating, hyperplane, old (with any of its splitters) or k-way partitioner, or FlatPartitioner around one of them, returns for the points, recursiveTriangulate returns, and whatever the interleavings of its parallel loops, the returned triangulation is a Delaunay triangulation of all points (exact arithmetic).", "quantifier": "all point sets, samples, planes, numbers of parts, bounds that contain the points, interleavings", "why_tests_cant": "Unbounded inputs, nested parallelism.", "anchors": ["include/LoadBalancedDCTriangulator.tpp", "include/load_balancing/PartitionTree.h"]}
{"id": "C83", "title": "Siblings in partition trees are separated", "statement": "In the tree that a partitioner returns, no finite point of one child of a node is in the convex hull of the finite points of another child. The merge step relies on this.", "quantifier": "all partitioners, point sets, samples, planes, assignments", "why_tests_cant": "Unbounded inputs, continuum of positions.", "anchors": ["include/load_balancing/SimplePartitioner.h", "include/load_balancing/OldPartitionerPartitioner.h", "include/load_balancing/kWaySplitter.h", "include/load_balancing/sample_partitioner/HyperplaneBipartitioner.h", "include/load_balancing/sample_partitioner/BinaryBoxEstimatingSamplePartitioner.h"]}
{"id": "C84", "title": "Every point of the bubble generators belongs to a bubble", "statement": "The index of the bubble of point i, computed in single precision as i * (numBubbles / n), is smaller than the number of bubbles for all i < n.", "quantifier": "all numbers of points and bubbles", "why_tests_cant": "The rounding errors reach the last index only for more than 2^24 points.", "anchors": ["include/load_balancing/UnboundBubbleGenerator.h:57", "include/load_balancing/MaliciousBubbleGenerator.h:35"]}
{"id": "C85", "title": "Generators advance the random source", "statement": "Successive calls of generate with the same random source use different random numbers.", "quantifier": "all generators, all states of the source", "why_tests_cant": "Each single call looks right; only a comparison of successive calls shows that std::bind copied the source.", "anchors": ["include/utils/Generator.h:59", "src/exe/DAC_Test.cpp:277-290"]}
{"id": "C86", "title": "Every bubble has a positive radius", "statement": "The radius of every bubble of the bubble generators is positive, so that the points of a bubble differ.", "quantifier": "all boxes, all numbers of bubbles", "why_tests_cant": "The points are generated and counted correctly; the duplicates only show up as degenerate input of the triangulation.", "anchors": ["include/load_balancing/MaliciousBubbleGenerator.h:50-105", "include/load_balancing/PatchBubbleGenerator.h:82-108"]}
{"id": "C87", "title": "Loading points returns their bounding box", "statement": "loadFromFile appends the points of the file in order and returns the smallest box that contains them.", "quantifier": "all files", "why_tests_cant": "Fails only for files where a dimension has no positive coordinate, for empty files and for short lines.", "anchors": ["include/Geometry.h:255-303", "src/exe/LB_Experiments.cpp:24"]}
{"id": "C88", "title": "Error-free transformations of the predicates", "statement": "With arithmetic rounded to p binary digits (to nearest, ties to even, unbounded exponents): Two_Sum and Two_Diff (p >= 2), Fast_Two_Sum if the first summand is not smaller in magnitude (p >= 1), and Two_Product and Square with splitter 2^ceil(p/2)+1 (p >= 4) return the rounded result x of the operation and a floating point number y with x + y equal to the exact result; Split returns two numbers with floor(p/2) and ceil(p/2)-1 digits whose sum is the argument.", "quantifier": "every precision p, all floating point arguments", "why_tests_cant": "the identities must hold for all pairs of numbers; rounding ties and numbers next to powers of two are met rarely by random tests", "anchors": ["src/utils/Predicates.cpp:166-253"]}
{"id": "C89", "title": "Constants of the predicates", "statement": "The loop in the constructor of PredicatesBase ends with epsilon = 2^-p and splitter = 2^ceil(p/2)+1, and the thirteen error bounds are computed from epsilon without any rounding error.", "quantifier": "every precision p >= 11", "why_tests_cant": "the precision of the arithmetic is found out by the loop at run time; tests see one precision", "anchors": ["src/utils/Predicates.cpp:411-467"]}
{"id": "C90", "title": "Arithmetic with expansions is exact", "statement": "The sum of two expansions and the product of an expansion with a floating point number represent the exact result, their components are floating point numbers, and the last component has the sign of the result. This holds for strongly nonoverlapping arguments, for differences of products, and for everything computed from these. The results are strongly nonoverlapping again.", "quantifier": "all precisions of at least 11 digits, all floating point numbers, all expansions of any length, all compositions", "why_tests_cant": "Rounding errors appear in rare digit patterns; tests compare with the same arithmetic.", "anchors": ["src/utils/Predicates.cpp:779-848", "src/utils/Predicates.cpp:1037-1078", "src/utils/Predicates.cpp:269-271"]}
{"id": "C91", "title": "Orientation test in the plane is exact", "statement": "The result of Predicates<2>::orient has the sign of the exact determinant of the three points, whichever of the four stages returns it.", "quantifier": "all precisions of at least 11 digits, all points with floating point coordinates", "why_tests_cant": "The later stages are reached only by nearly collinear points; a wrong error bound shows only for a few digit patterns.", "anchors": ["src/utils/Predicates.cpp:1268-1380", "src/lib/Geometry.cpp:86-100"]}
{"id": "C92", "title": "Sums of expansions stay inside their arrays", "statement": "fast_expansion_sum_zeroelim reads only elements of its argument arrays, in particular when it is called by Predicates<2>::orient.", "quantifier": "all arrays, all lengths", "why_tests_cant": "The value that is read beyond the end is never used, so no result is wrong; only the access itself is undefined.", "anchors": ["src/utils/Predicates.cpp:779-848", "src/utils/Predicates.cpp:1274-1330"]}
{"id": "C93", "title": "The adaptive incircle test is exact", "statement": "For every precision of at least 11 digits and all points in the plane whose coordinates are floating point numbers, the number returned by Predicates<2>::insphere (filters, estimate, correction and exact stage together, with the constants computed by the constructor) has the sign of the exact incircle determinant. GeometryCore<2>::inSphere, which multiplies the rounded results of orient and insphere, therefore decides exactly as the test in exact arithmetic does.", "quantifier": "all precisions p >= 11, all quadruples of points with p-digit coordinates (no overflow or underflow)", "why_tests_cant": "The filters only fail on nearly cocircular points; the number of four-tuples of doubles is astronomically large and a missing term in the exact stage changes the sign for a tiny fraction of them.", "anchors": ["src/utils/Predicates.cpp:1679-2338", "src/lib/Geometry.cpp:148-187"]}
{"id": "C94", "title": "The adaptive orientation test in space is exact", "statement": "For every precision of at least 11 digits and all points in space whose coordinates are floating point numbers, the number returned by Predicates<3>::orient (filters, estimate, correction and exact stage together, with the constants computed by the constructor) has the sign of the exact orientation determinant.", "quantifier": "all precisions p >= 11, all quadruples of points with p-digit coordinates (no overflow or underflow)", "why_tests_cant": "The later stages are only reached for nearly coplanar points; an error bound that is too small by one unit, or a dropped tail term, changes the sign for a vanishing fraction of inputs.", "anchors": ["src/utils/Predicates.cpp:2563-3004", "src/utils/Predicates.cpp:3020-3058"]}
{"id": "C95", "title": "The adaptive insphere test in space is exact", "statement": "For every precision of at least 11 digits and all points in space whose coordinates are floating point numbers, the number returned by Predicates<3>::insphere (filters, estimate, correction and exact stage together, with the constants computed by the constructor) has the sign of the exact determinant, and GeometryCore<3>::inSphere with the adaptive tests decides as with exact arithmetic.", "quantifier": "all precisions p >= 11, all quintuples of points with p-digit coordinates (no overflow or underflow)", "why_tests_cant": "The later stages are only reached for nearly cospherical points; the error bounds are tight (5, 16 and 71 units), so a constant that is too small or a missing term of the correction changes the sign only for a vanishing fraction of inputs.", "anchors": ["src/utils/Predicates.cpp:3131-3381", "src/utils/Predicates.cpp:3711-4040", "src/lib/Geometry.cpp:351-410"]}
{"id": "C96", "title": "The arrays of the adaptive tests are large enough", "statement": "For every arithmetic of the machine and all arguments, the four adaptive tests (orient and insphere in the plane and in space, with all stages) never write a component of an expansion beyond the end of the declared array (8, 12, 16, ..., 1152, 5760 elements) and never pass an array to fast_expansion_sum_zeroelim or scale_expansion_zeroelim that has not been initialised (aa, bb, cc are only computed if a tail of another point is not zero).", "quantifier": "all rounding functions, all constants, all points", "why_tests_cant": "The arrays are only filled when no component vanishes, which does not occur for test inputs; an array that is too small corrupts the stack without any message.", "anchors": ["src/utils/Predicates.cpp:1268-1345", "src/utils/Predicates.cpp:1679-2294", "src/utils/Predicates.cpp:2563-3004", "src/utils/Predicates.cpp:3131-3381", "src/utils/Predicates.cpp:3711-3924"]}
{"id": "C97", "title": "Adaptive tests with the exponents of double and float", "statement": "With IEEE arithmetic (gradual underflow, overflow to whatever value) the constructor of the predicates computes the same constants as with unbounded exponents, for double and for float (whose expressions with literals are evaluated as double). For points whose coordinates are doubles, multiples of 2^q and at most 2^m in absolute value, orient, insphere and inSphere return the exact answer; (q, m) is (-457, 454) for orient and (-228, 117) for insphere in the plane, (-305, 206) and (-183, 141) in space, (-179, 82) and (-134, 55) for inSphere; for orient in the plane with float it is (-38, 21). For arbitrary doubles this is wrong.", "quantifier": "all points in the stated range; all results of overflow", "why_tests_cant": "Underflow occurs only for coordinates near the ends of the range; tests use random points of the unit cube.", "anchors": ["src/utils/Predicates.cpp:411-467", "src/utils/Predicates.cpp:1347-1380", "src/utils/Predicates.cpp:2400-2465", "src/utils/Predicates.cpp:3941-4040", "src/lib/Geometry.cpp:148-187", "src/lib/Geometry.cpp:351-410"]}
{"id": "C98", "title": "Descriptions of experiments are read back as they were written", "statement": "The text that ExperimentRun::str prints for the traits of a run is read back by the constructor from a string: it returns, every trait that is not in the list of ignored fields has its old value, no trait is invented, and host name and revision are those of the reading machine; a run that was created but not started equals, in the sense of operator==, the run that is read back, and operator== is an equivalence.", "quantifier": "all sets of traits, host names and revisions", "why_tests_cant": "A test compares a few hand written descriptions; values with spaces, empty values, runs that have been started and texts without separators are outside of what it tries, and the wrap-around of npos hides the error.", "anchors": ["include/utils/Timings.h:24-112", "src/utils/Timings.cpp:8-99"]}
{"id": "C99", "title": "Profiling counters count every event", "statement": "When all calls of incCounter have returned, every counter equals the sum of the increments.", "quantifier": "all executions with any number of threads, counters and increments", "why_tests_cant": "The loss of an update needs two threads between the load and the store of the same counter; a test that counts in parallel sees it rarely, and profiling is switched off in the tests.", "anchors": ["include/utils/Timings.h:92-94", "include/utils/Timings.h:144-147", "include/Geometry.h:80-140"]}
{"id": "C100", "title": "Values of traits are stored under the right type", "statement": "bsonify stores the value of a trait as an integer or a floating point number with its value if it is written like one, and as unchanged text otherwise; no value makes it throw.", "quantifier": "all values of traits (texts)", "why_tests_cant": "The regular expressions are wrong in a way that the usual values do not show: a range inside the brackets accepts any character from ( to | in place of the sign, and requires one.", "anchors": ["include/utils/StringUtils.h:7-17", "src/utils/DBConnection.cpp:124-133"]}
{"id": "C101", "title": "Point in simplex test with double and float", "statement": "With integer coordinates that are small enough, GeometryCore::inSimplex accepts the vertices and every point of a nondegenerate simplex that is not on the face opposite to the first vertex, and rejects every point outside of the simplex. It may reject points on that face, and with larger coordinates it rejects interior points and accepts exterior points.", "quantifier": "all nondegenerate simplices and points with integer coordinates of absolute value at most N (1024 N^4 <= 2^p in the plane, 82944 N^6 <= 2^p in space), for double and float", "why_tests_cant": "the set of configurations is too large to enumerate, and results depend on the rounding of about 60 operations", "anchors": ["src/lib/Geometry.cpp:45-67", "src/lib/Geometry.cpp:102-135", "src/lib/Geometry.cpp:291-335", "include/Geometry.h:574-578", "include/Geometry.h:874"]}
{"id": "C102", "title": "Circumsphere test of the border with double", "statement": "With integer coordinates that are small enough, dBox::intersects applied to the circumsphere of a simplex is true whenever the box contains an integer point strictly inside of the sphere through the vertices, although sphere and distance are computed with rounding. So getEdge misses no simplex that a point of the other part can destroy. With larger coordinates such a simplex can be missed.", "quantifier": "all nondegenerate simplices, points and boxes in the plane with integer coordinates of absolute value at most N (20480 N^6 <= 2^53) and in space (10^6 N^8 <= 2^53), all implementations of pow and sqrt with small relative error", "why_tests_cant": "the set of configurations is too large to enumerate, and results depend on the rounding of 40 to 300 operations and on the library functions", "anchors": ["src/lib/Geometry.cpp:189-237", "src/lib/Geometry.cpp:412-722", "include/Geometry.h:135-154", "src/lib/DCTriangulator.cpp:152-157", "include/LoadBalancedDCTriangulator.tpp:176"]}
{"id": "C103", "title": "Migrating a multimap copies every pair exactly once", "statement": "While the helper threads of GrowingHashTableHandle::grow() migrate a Concurrent_LP_MultiMap that nobody else writes into one of twice the capacity, no pair is ever stored more often than in the old table; as soon as one helper leaves the wait loop every slot of the old table has been read exactly once, the new table holds exactly the pairs of the old one with their multiplicities and its item counter is their number. In particular the test for a half full table in insert(), which _migrate runs through, never rejects a pair.", "quantifier": "for all tables, hash multipliers, numbers of helpers and interleavings", "why_tests_cant": "Tests exercise few interleavings of few helpers, and a dropped or doubled pair of a multimap shows up only as a wrong neighbour much later.", "anchors": ["include/datastructures/Growing_LP.hxx:369-389", "include/datastructures/LP_MultiMap.hxx:403-439", "include/datastructures/LP_MultiMap.hxx:628-636"]}
{"id": "C104", "title": "A growing multimap keeps every inserted pair", "statement": "insert(key, value) on handles of a GrowingHashTable<Concurrent_LP_MultiMap> (the face index of the merge) returns true, and the pair is in the table afterwards with its value. Proved as long as no more insertions are called than half the slots of the first table (then the table does not grow and all pairs are kept); violated when the table grows: a thread that has claimed a slot but not stored its value yet while another thread migrates the slot leaves the key with an uninitialised value in the new table, and its own value is lost.", "quantifier": "for all numbers of threads and handles, initial sizes, pairs and interleavings; the violation for every content of the uninitialised memory", "why_tests_cant": "The window between the compare-and-swap of the key and the store of the value is a few instructions wide, and the growth has to happen in it.", "anchors": ["include/datastructures/Growing_LP.hxx:217-231", "include/datastructures/Growing_LP.hxx:348-403", "include/datastructures/LP_MultiMap.hxx:403-439", "include/datastructures/LP_MultiMap.hxx:632-636"]}
{"id": "C105", "title": "The face index does not grow in buildWhereUsed", "statement": "At every moment of every schedule buildWhereUsed has performed at most (D+1)^2 insertions per edge simplex, although the test and the change of a simplex's mark are not atomic and a simplex may be entered several times; this is at most half the capacity the index is constructed with, so it does not grow (and C104 applies). In the whole of mergeTriangulation the index receives at most (D+1)^2 faces per edge simplex plus D+1 per inserted simplex, so that it does not grow there if at most (D^2-1)/2 times as many simplices are inserted as there are edge simplices.", "quantifier": "for all dimensions D >= 1, triangulations, edge sets and schedules", "why_tests_cant": "The bound concerns the worst case over all schedules of the racy marking; tests see one schedule.", "anchors": ["src/lib/DCTriangulator.cpp:182-249", "src/lib/DCTriangulator.cpp:355-475"]}
{"id": "C106", "title": "A growing map acknowledges each key once and keeps its value", "statement": "However many threads insert concurrently into the growing map (the edge map of makeGraph): as long as fewer different keys have been inserted than half the slots of its first table, no key is ever acknowledged as new twice, and when no insertion is running the table holds exactly the inserted keys, each once and acknowledged once, with a value passed to one of its insertions. The cooperative migration into a larger table copies every pair exactly once.", "quantifier": "all hash multipliers, sizes, contents of uninitialised memory, numbers of threads and handles, sequences of insertions and interleavings", "why_tests_cant": "The violations need a thread to be preempted between finding a free slot and claiming it, or between claiming it and storing the value, while another thread makes the table grow.", "anchors": ["include/datastructures/Growing_LP.hxx:15-77", "include/datastructures/Growing_LP.hxx:201-413", "include/datastructures/LP_Map.hxx:243-512", "include/load_balancing/sample_partitioner/Sampler.h:311-347"]}
{"id": "C107", "title": "The edge map never grows while the sample graph is built", "statement": "makeGraph constructs its edge map with D*upperBound - lowerBound slots, rounded up to a power of two; this is enough for all edges of the sample triangulation, so the map is never migrated while other threads insert into it (C106).", "quantifier": "all sample triangulations, numbers of threads, hash multipliers, contents of uninitialised memory and interleavings", "why_tests_cant": "Whether a table grows cannot be seen from the result unless a preemption hits the few instructions in which C106 is violated.", "anchors": ["include/load_balancing/sample_partitioner/Sampler.h:315", "include/load_balancing/sample_partitioner/Sampler.h:322-354", "include/datastructures/Growing_LP.hxx:216-231", "include/datastructures/LP_Map.hxx:293-329"]}
{"id": "C108", "title": "The sample graph is right with the concurrent edge map of the code", "statement": "makeGraph, executed by several threads that insert into the growing lock-free edge map and count the insertions that were told to be new, returns the graph of the sample triangulation: every node has as many entries as neighbours, and the entries are its neighbours with the weights of the edges.", "quantifier": "all samples with fewer than 2^32 points, positive weights, numbers of threads, distributions of the work, hash multipliers, contents of uninitialised memory and interleavings of the single atomic accesses", "why_tests_cant": "The result is wrong only if a thread is preempted between finding a free slot and claiming it while another thread makes the table grow.", "anchors": ["include/load_balancing/sample_partitioner/Sampler.h:315-384", "include/datastructures/Growing_LP.hxx:201-403", "include/datastructures/LP_Map.hxx:293-329"]}
{"id": "C109", "title": "No point is lost when the points are distributed to the parts concurrently", "statement": "When several threads insert the ids of the points into the growing lock-free sets of the parts, the set of every part consists at the end of exactly the finite ids that the partitioning assigns to the part, each of them once.", "quantifier": "all lists of ids without zero and without duplicates, assignments of ids to parts, numbers of parts and threads, distributions of the work, hash multipliers and interleavings of the single atomic accesses", "why_tests_cant": "An id is lost only if a thread is preempted between finding a free slot and claiming it while another thread makes the set grow and copies the slot.", "anchors": ["include/load_balancing/GridIntersectionChecker.h:83-125", "include/load_balancing/BoundsIntersectionChecker.h:35-60", "include/load_balancing/kWaySplitter.h:62-88", "include/load_balancing/sample_partitioner/HyperplaneBipartitioner.h:101-125", "include/datastructures/Growing_LP.hxx:216-232"]}
{"id": "C110", "title": "The drawn sample is not empty", "statement": "For a nonempty set of points the sample drawn by the sampler consists of finite points of the set, at most as many as requested, and it is not empty, so that every point has a nearest sample point.", "quantifier": "all dimensions, sample sizes, lists of ids without duplicates and results of std::sample", "why_tests_cant": "The infinite points are drawn with a small probability; an empty sample of a few hundred points needs a very unlucky seed.", "anchors": ["include/load_balancing/sample_partitioner/Sampler.h:130-175", "include/load_balancing/CommandLineInterface.h:93-108", "include/load_balancing/sample_partitioner/NearestSamplePointAssigningSamplePartitioner.h:98-112"]}
{"id": "C111", "title": "The box of a node is split in the middle of the border of the two parts", "statement": "The box estimating partitioner finds every edge of the sample graph between part 0 and the other part exactly once, splits the box inside of it at the median of the midpoints of these edges, in the dimension with the shortest border, and the two boxes cover the box and share only the splitting plane.", "quantifier": "all sample triangulations, assignments of the sample points to parts, boxes that contain the sample points, dimensions and results of the unstable sorting", "why_tests_cant": "A split in the wrong dimension still gives a correct triangulation, so no test of the result fails.", "anchors": ["include/load_balancing/sample_partitioner/BinaryBoxEstimatingSamplePartitioner.h:13-66", "include/load_balancing/BoxUtils.h:9-22"]}
{"id": "C112", "title": "A command line is carried out as requested or rejected", "statement": "The program for the load balancing experiments either starts the experiment with the dimension, points, partitioner, weights, mode and sizes that were requested, or it ends with a message or an exception; no command line leads to undefined behaviour.", "quantifier": "all combinations of options and values, including unknown names, and orders of evaluation of the arguments", "why_tests_cant": "The names that are tried are those that exist.", "anchors": ["src/exe/LB_Experiments.cpp:14-118", "include/load_balancing/CommandLineInterface.h:41-208", "include/load_balancing/Experiment.h:47-55"]}
{"id": "C113", "title": "The concurrent edge extraction loses nothing", "statement": "When getEdge runs in parallel for all parts with the two shared growing sets of the code, at the end the sets contain exactly the ids of the edge simplices and the edge points of all parts, each once; no foreign id gets in and the marks of every part are those of a run with ideal sets.", "quantifier": "all numbers of threads and parts, all triangulations of the parts, all intersection tests, all interleavings of the atomic accesses, all numbers of points and growth steps", "why_tests_cant": "The ids are lost only when one thread has found a free slot and another one makes the table grow before it writes; tests hit this window rarely and do not compare the sets with a reference.", "anchors": ["src/lib/DCTriangulator.cpp:96-180", "src/lib/DCTriangulator.cpp:547-602", "include/datastructures/Growing_LP.hxx:216-403"]}
{"id": "C114", "title": "A growing set stays small", "statement": "Insertions that do not overlap return, whatever the handles and the odd multiplier of the hash function, answer whether the id is new, and leave a table with exactly these ids whose number of slots is at most proportional to the number of ids and the initial size.", "quantifier": "all odd multipliers, initial sizes, handles and sequences of ids below 2^64, including ids that collide in every table", "why_tests_cant": "The set also grows after eleven collisions in a row, and the multiplicative hash with a mask keeps the residues modulo every power of two; a test would need ids in such a grid to see the memory grow.", "anchors": ["include/datastructures/LP_Set.hxx:571-620", "include/datastructures/Growing_LP.hxx:216-403", "include/datastructures/LP_Set.hxx:784-784"]}
{"id": "C115", "title": "The report of an experiment is valid JSON", "statement": "The output of an experiment is a JSON text (RFC 8259), whatever its setup, the number of runs and what the monitors register, and it denotes the object with these data and no other value; the arguments are joined by spaces.", "quantifier": "all setups (argument strings, names, numbers), all numbers of runs, all sequences of calls of the monitor, partitions and base triangulations, with and without verification", "why_tests_cant": "The text is put together by hand with commas, quotation marks and brackets that depend on counters and options; a test sees a few reports, and only arguments with quotation marks or backslashes show that strings are not escaped.", "anchors": ["include/load_balancing/Experiment.h:64-134", "src/exe/LB_Experiments.cpp:101-104"]}
{"id": "C116", "title": "Each result of a report describes its run", "statement": "The durations, partition sizes, base triangulations, points and sample size in the result of a run are those the monitor registered during this run.", "quantifier": "all sequences of runs and of calls of the monitor", "why_tests_cant": "The experiment program makes one run per process; only a second run of the same experiment shows that the accumulator is not reset.", "anchors": ["include/load_balancing/Experiment.h:64-112", "include/load_balancing/monitors/ComprehensiveMonitor.h:11-63", "include/load_balancing/monitors/TimingMonitor.h:7-37"]}
{"id": "C117", "title": "The benchmark generates every requested experiment exactly once", "statement": "generateExperimentRuns of the benchmark program returns; its result has every combination of distribution, number of points d*10^k between the bounds, algorithm, number of threads minThreads*2^i up to maxThreads, occupancy, splitter and parallel options that applies to the algorithm (CGAL: one thread, nothing else; parallel CGAL: every occupancy; the others: every splitter with sequential base case, and with parallel base case and every occupancy if requested), nothing else, and nothing twice.", "quantifier": "for all lists without repetition, all bounds and options", "why_tests_cant": "The bounds are command line options of 32 bits; the failing ones make the loop endless or overflow a conversion, which a test run with usual bounds does not show.", "anchors": ["src/exe/Benchmark.cpp:134-272", "src/exe/Benchmark.cpp:154", "src/exe/Benchmark.cpp:172"]}
{"id": "C118", "title": "Each benchmark run is executed once with the parameters it was generated with", "statement": "runExperiment reads from the traits of a generated run exactly the distribution, number of points, algorithm, threads, occupancy, splitter and parallel options it was generated with, also if the run was written by --gen-only and read again on another machine; runExperiments executes every run once, in order or backwards, also if there are none.", "quantifier": "for all generated runs, host names, revisions, numbers of runs and both directions", "why_tests_cant": "The values pass through text, so that a test shows only that the values of that test survive; the backward loop ends at -1 with an unsigned size.", "anchors": ["src/exe/Benchmark.cpp:36-78", "src/exe/Benchmark.cpp:111-131", "include/utils/Timings.h:36-61"]}
{"id": "C119", "title": "Dumped points are loaded as they were generated", "statement": "If the output of the point dump program is read by loadFromFile, the container has the generated points with the same ids and coordinates.", "quantifier": "for all generated points and all roundings of std::stod that keep 0", "why_tests_cant": "A test would have to compare the container with the generated points; the file looks right and the triangulation of one more point succeeds.", "anchors": ["src/exe/LB_PointDump.cpp:42-44", "include/Geometry.h:241-303", "include/datastructures/VectorAdapter2.hxx:93-111"]}
{"id": "C120", "title": "The reported number of simplices is that of the triangulation", "statement": "The trait nS of a benchmark run and the simplices entry of a report, both exact_size() of the result, are the number of simplices of the triangulation.", "quantifier": "all contents of the blocked array of simplices, all results of the base triangulator", "why_tests_cant": "The reports are not compared with a count; the difference depends on the number of infinite cells and of deleted simplices.", "anchors": ["include/datastructures/BlockedArray2.hxx:502-509", "src/exe/Benchmark.cpp:95-96", "include/load_balancing/Experiment.h:73", "src/exe/DAC_Test.cpp:135", "src/lib/CGALTriangulator.cpp:499-500"]}
{"id": "C121", "title": "Orientation and incircle tests without filters are exact", "statement": "orient_exact and insphere_exact, in the plane and in space, compute components that are floating point numbers with the exact determinant as sum, and return a number with its sign.", "quantifier": "all precisions of at least 11 digits, all points with floating point coordinates", "why_tests_cant": "The rounding errors depend on all digits of the coordinates; wrong signs occur only for nearly degenerate points.", "anchors": ["src/utils/Predicates.cpp:1188-1227", "src/utils/Predicates.cpp:1426-1521", "src/utils/Predicates.cpp:2396-2470", "src/utils/Predicates.cpp:3131-3381"]}
{"id": "C122", "title": "The other functions for expansions compute exactly", "statement": "The functions for expansions that the predicates do not call add and multiply exactly: grow_expansion, expansion_sum and their variants return floating point numbers whose sum is the exact one, keep the components nonoverlapping, so that the last component that is not zero has the sign of the result, and the variants that eliminate zeros return none unless the result is the single component 0; fast_expansion_sum returns up to zeros what its zero eliminating variant returns; scale_expansion returns twice as many components whose sum is the exact product.", "quantifier": "all precisions of at least 2 (4 for products, 11 for the fast sum) digits, all lists of floating point numbers (nonoverlapping where said)", "why_tests_cant": "Rounding errors cancel in most samples; nonoverlapping expansions with components of very different magnitude and with cancellation are rare, and the functions are not called by any test.", "anchors": ["src/utils/Predicates.cpp:482-700", "src/utils/Predicates.cpp:706-765", "src/utils/Predicates.cpp:991-1019"]}
{"id": "C123", "title": "Rehashing and merging the concurrent map keep its entries", "statement": "After unsafe_rehash(newSize) with newSize at least twice the number of entries, Concurrent_LP_Map has exactly the entries it had and the counter is their number. After unsafe_merge(other) its keys are exactly the keys of both maps, once each, and a key has its value in other if it is there, otherwise its old value. After unsafe_merge(other, filter) its keys are exactly those of both maps that the filter does not have, and every value is one of the key's values in the two maps. Without the room an entry can be lost silently, and with a filter the value of a key in both maps is not determined.", "quantifier": "all maps left by any concurrent execution, all requested sizes, all filters, all numbers of threads and all interleavings of the insertions of the parallel loops", "why_tests_cant": "The loops ignore what insert returns, so that no entry is dropped depends on the count of insertions in all interleavings; which value wins depends on the schedule.", "anchors": ["include/datastructures/LP_Map.hxx:369-428"]}
{"id": "C124", "title": "Rehashing and merging the concurrent multimap keep its entries", "statement": "After unsafe_rehash(newSize) with newSize at least twice the number of entries, Concurrent_LP_MultiMap has exactly the entries it had, with multiplicities, and the counter is their number. After unsafe_merge(other, filter) it has exactly the entries of both multimaps whose key the filter does not have, with multiplicities, no insertion found the table full, and the operations of the multimap are defined.", "quantifier": "all multimaps left by any concurrent execution, all requested sizes, all filters, all numbers of threads and all interleavings of the insertions of the parallel loops", "why_tests_cant": "The loops ignore what insert returns, so that no entry is dropped depends on the count of insertions in all interleavings; the computed size is wrong only for two empty multimaps.", "anchors": ["include/datastructures/LP_MultiMap.hxx:508-576", "include/datastructures/LP_MultiMap.hxx:601-630"]}
{"id": "C125", "title": "Compressing an expansion keeps its value and leaves nonadjacent components", "statement": "For every nonempty expansion of floating point numbers whose components do not overlap, compress returns an expansion with the same exact sum, at most as many components, all of them floating point numbers, no two of them overlapping or adjacent, and no zeros unless the result is the single component 0. The last component alone differs from the sum by at most 2^(1-p) times its own size.", "quantifier": "for every precision p of at least 3 and every nonempty list of p-digit numbers whose nonzero components do not overlap", "why_tests_cant": "The claim is about all expansions of any length; which roundings happen, and which components are merged, depends on every digit.", "anchors": ["src/utils/Predicates.cpp:1079-1122"]}
{"id": "C126", "title": "The sum of expansions in linear time is exact and does not overlap", "statement": "For all nonempty expansions of floating point numbers whose components do not overlap, linear_expansion_sum returns an expansion with the exact sum, as many components as both arguments together, all of them floating point numbers that do not overlap; linear_expansion_sum_zeroelim returns the same without zeros, and its last component has the sign of the sum.", "quantifier": "for every precision p of at least 3 and all nonempty lists of p-digit numbers whose nonzero components do not overlap, zeros anywhere", "why_tests_cant": "That every addition with the cheaper macro is exact, and that no later component overlaps an earlier one, depends on the interplay of all components of both arguments.", "anchors": ["src/utils/Predicates.cpp:860-976"]}
{"id": "C127", "title": "Exact tests on differences", "statement": "orient_slow and insphere_slow of the plane and of space, which compute with rounded differences of coordinates and their tails by Two_Two_Product, produce components that are floating point numbers with exactly the determinant as sum, at most as many as the array deter has place for, and the returned last component has the sign of the determinant. Two_Two_Product itself yields eight nonadjacent floating point numbers whose sum is the exact product, and grow_expansion and expansion_sum keep nonadjacent components nonadjacent (round to even).", "quantifier": "all points with floating point coordinates of precision p >= 11 (no overflow or underflow); all pairs of a number and a nonadjacent tail; all nonadjacent expansions", "why_tests_cant": "The tails are zero for most inputs and the components that decide the sign only differ in nearly degenerate positions; a wrong component leaves the sign right for almost all tested points", "anchors": ["src/utils/Predicates.cpp:328-351", "src/utils/Predicates.cpp:1228-1266", "src/utils/Predicates.cpp:1524-1677", "src/utils/Predicates.cpp:2472-2561", "src/utils/Predicates.cpp:3383-3709"]}
{"id": "C128", "title": "Multiplying an expansion keeps its components apart", "statement": "scale_expansion and scale_expansion_zeroelim keep components nonoverlapping, and keep them nonadjacent, as their comments say; so the last nonzero component has the sign of the product. For scale_expansion_zeroelim the product is exact for any nonoverlapping input, because its Fast_Two_Sum always has the larger operand first, and the result is that of scale_expansion without zeros.", "quantifier": "For all expansions of at least one component, all factors and all precisions of at least 4 bits, with exponents unbounded.", "why_tests_cant": "The property concerns every pattern of rounding errors; a test sees a few.", "anchors": ["src/utils/Predicates.cpp:978-1019", "src/utils/Predicates.cpp:1023-1078"]}
{"id": "C129", "title": "Walking a bit set backwards", "statement": "Decrementing an iterator of the bit set leads to the greatest id of the set before it, so that walking from end() back to the first id visits the ids in decreasing order, each once, without leaving the array. Decrementing the iterator at the first id should be harmless too, but it reads out of bounds: the test m_idx >= 0 of an unsigned number is always true.", "quantifier": "all bit sets a client can build and all positions up to end()", "why_tests_cant": "the loop's end condition is a tautology; whether the wrapped index is read only shows for iterators at the first element, which no test decrements, and a read out of bounds need not fail", "anchors": ["include/datastructures/Bit_Set.hxx:45-54", "include/datastructures/Bit_Set.hxx:127-134"]}
{"id": "C130", "title": "The key-value insertion of the concurrent map ends", "statement": "Concurrent_LP_Map::_insert(key, value) should put one pair into the map and return. It never does: the loop has no exit, so it goes on until every free slot holds the key, and counts each of them as an item.", "quantifier": "all tables of a power of two slots, all keys but 0, all values", "why_tests_cant": "the function is called by nothing in the repository, so no test reaches it; the claim is about a run without end", "anchors": ["include/datastructures/LP_Map.hxx:456-486"]}
{"id": "C131", "title": "The file of the sample graph is a valid METIS graph", "statement": "Graph::toFile writes the sample graph in the METIS format: a reader gets the number of nodes, the number of undirected edges and, for every node, exactly its neighbours with the weights of the edges.", "quantifier": "all graphs in compressed form with fewer than 2^31 nodes, and all graphs makeGraph builds", "why_tests_cant": "separators, counting from one, empty lines of nodes without neighbours and the edge count of the header interact; a test sees a few files and never negative weights or isolated nodes", "anchors": ["include/load_balancing/sample_partitioner/Sampler.h:55-77"]}
{"id": "C132", "title": "Accurate grid checkers refer to point sets that exist", "statement": "An AccurateGridIntersectionChecker keeps the address of the set of ids its maker was called with. Whenever the triangulator asks a checker of the returned partition tree, that set must still exist and be the one the checker was made for. This holds for the partitioners that assign all points at once. The nearest-sample-point bipartitioner violates it with four or more parts: the checkers of grandchildren refer to sets in a local tree that is destroyed on return.", "quantifier": "all point sets, samplings (as assignments of the points), numbers of parts, cutoffs and positions in the recursion", "why_tests_cant": "a dangling reference mostly still reads the old values, so runs pass by chance; the cutoff keeps small tests from splitting twice", "anchors": ["include/load_balancing/AccurateGridIntersectionChecker.h:24-66", "include/load_balancing/AccurateGridIntersectionChecker.h:108-147", "include/load_balancing/sample_partitioner/NearestSamplePointAssigningSampleBipartitioner.h:44-92"]}
{"id": "C133", "title": "A copy of a grid tree is an equal and independent tree", "statement": "Copying the tree of boxes of a grid checker terminates; the copy has the same boxes and leaves, answers every query as the original, shares no node with it, and stays intact when the original is changed or destroyed. Moving a tree gives its nodes to the target.", "quantifier": "all trees in memory, all later changes to the memory of the other tree, all query tests", "why_tests_cant": "Sharing a node between copies shows only after one of them is changed or destroyed; a read of a member without a value usually has no visible effect.", "anchors": ["include/datastructures/AABBTree.h:41-51", "include/datastructures/AABBTree.h:53-58", "include/datastructures/AABBTree.h:136-154", "include/load_balancing/AccurateGridIntersectionChecker.h:46"]}
{"id": "C134", "title": "The indentation of the log belongs to the call that logs", "statement": "In the parallel divide and conquer recursion, every line of the log is indented by the length of the provenance of the call that logs it plus the nesting inside of it, and a call leaves the indentation of its thread as its provenance says, whichever tasks the thread executes while it waits for a loop. The indentation never goes below zero.", "quantifier": "all recursions, all schedules of the tasks on a thread", "why_tests_cant": "Depends on which task a waiting thread takes; tests run with few threads or without log.", "anchors": ["include/utils/Logger.h:75-86", "src/utils/Logger.cpp:44-49", "src/lib/DCTriangulator.cpp:499-609", "src/lib/DCTriangulator.cpp:130-179", "src/lib/DCTriangulator.cpp:258-352", "include/LoadBalancedDCTriangulator.tpp:575-682"]}
{"id": "C135", "title": "The averages of the profiler are those of the measurements", "statement": "Every measurement that a thread added is in the list exactly once, whatever the interleaving; the average that is printed is the mean of the measurements rounded down and lies between their bounds if their sum is below 2^64; what is recorded as a percentage is the percentage.", "quantifier": "all numbers of threads, lists of measurements and interleavings", "why_tests_cant": "The printed averages are not compared with anything, and a wrong unit or a lost measurement leaves a plausible number.", "anchors": ["include/utils/Timings.h:76-78", "src/utils/Timings.cpp:64-75", "src/lib/DCTriangulator.cpp:564-598"]}
{"id": "C136", "title": "The base triangulations of a report have different provenances", "statement": "Within a run of the load balanced triangulator every base triangulation (one for each leaf of the partition tree, one for the edge of each node) and every triangulation of a sample is registered under a provenance of its own, so that the entries of the report can be told apart.", "quantifier": "all partition trees and all orders of the threads", "why_tests_cant": "The texts are concatenations of numbers without separators; ambiguities need nodes with more than ten children or several samples in a run, and the report is not checked by anything.", "anchors": ["include/LoadBalancedDCTriangulator.tpp:500-694", "include/load_balancing/monitors/ComprehensiveMonitor.h:27-36", "include/load_balancing/sample_partitioner/NearestSamplePointAssigningSampleBipartitioner.h:45-95", "include/load_balancing/sample_partitioner/HyperplaneBipartitioner.h:57", "include/load_balancing/sample_partitioner/BinaryBoxEstimatingSamplePartitioner.h:129", "include/Triangulator.h:36-68"]}
{"id": "C137", "title": "The distance to a face concerns the face opposite to the given vertex", "statement": "For every vertex number d of a simplex, dSimplex::sqDistanceToFace(d, p, points) measures the distance of p to the hyperplane spanned by the vertices other than d: the value is non-negative, it is zero exactly for the points of that hyperplane, and scaled by the size of the face its square is the squared distance; a number that is no vertex raises the exception.", "quantifier": "For all simplices without degenerate faces, all point containers, all vertex numbers and all query points.", "why_tests_cant": "A wrong face gives a plausible distance and only changes the order of the search for the nearest simplex; a test sees the same result at the end.", "anchors": ["include/Geometry.h:588-594", "include/Geometry.h:1007-1022", "include/Geometry.h:1061-1078"]}
{"id": "C138", "title": "The requested verbosity decides which lines of the log are shown", "statement": "A program that is asked for a verbosity shows exactly the lines of the log whose level is at most the absolute value of that verbosity, each once and in the order of the calls: at once for the live levels, at the end otherwise. The text of a logged container is its prefix and its elements with the separator between them.", "quantifier": "For all verbosities, all sequences of calls of the logger, with and without debugging, in DAC_Test and LB_Experiments.", "why_tests_cant": "The output of the logger is not an output of any function a test calls, and the option is only read in the main programs.", "anchors": ["include/utils/Logger.h:16-60", "include/utils/Logger.h:88-117", "src/utils/Logger.cpp:17-47", "src/exe/DAC_Test.cpp:208-230", "src/exe/DAC_Test.cpp:315-317", "src/exe/LB_Experiments.cpp:48-74"]}
{"id": "C139", "title": "The progress bar is full exactly when the expected count is reached", "statement": "The progress display writes 51 stars and the end of the line when the count reaches the expected count, before that at most 50 stars that follow the share of the count, and the increment operator returns the count of its call.", "quantifier": "For all expected counts up to 2^53, all sequences of increments, every monotone rounding of double that represents these integers, and all interleavings of concurrent increments.", "why_tests_cant": "The number of stars depends on floating point rounding for every pair of count and expected count.", "anchors": ["include/utils/ProgressDisplay.h:32-61", "include/utils/ProgressDisplay.h:79-95"]}
{"id": "C140", "title": "The reported number of points is the number of points", "statement": "A container into which n points were generated or loaded has exactly n finite ids, growing it keeps its elements and makes all requested ids accessible, and the number of points in the report of an experiment is the number of these ids.", "quantifier": "For all dimensions below 31, all numbers of points, all files, all offsets and indices.", "why_tests_cant": "The entry 0 that is no point is counted nowhere else, and nobody compares the report with the command line.", "anchors": ["include/load_balancing/Experiment.h:124", "include/datastructures/VectorAdapter2.hxx:84-126", "include/Geometry.h:241-303", "include/utils/Generator.h:24-34"]}
{"id": "C141", "title": "The older point container claims exactly the ids it can access", "statement": "VectorAdapter::contains(i) holds exactly if VectorAdapter::at(i) returns an element.", "quantifier": "For all contents, offsets, ids and dimensions below 31.", "why_tests_cant": "The class is not instantiated by the programs and the expression has the right value for ids that are contained.", "anchors": ["include/datastructures/VectorAdapter.hxx:22-26", "include/datastructures/VectorAdapter.hxx:56-78", "include/datastructures/VectorAdapter.hxx:92-94", "include/datastructures/VectorAdapter.hxx:146-156"]}
{"id": "C142", "title": "A picture is similar to the triangulation it shows", "statement": "The painter maps the plane to the image by a similarity with the resolution as factor, the bounds to the middle third of the image, boxes to the rectangles between their corners, circles to circles; each edge of a finite triangle is drawn once, and exactly the points of the data are drawn.", "quantifier": "For all bounds with positive extent, resolutions, points, boxes, circles and triangles.", "why_tests_cant": "Pictures are looked at by people, and a wrong scale of one coordinate or of circles is only visible for bounds that are no square.", "anchors": ["src/lib/Painter_2.cxx:12-71", "src/lib/Painter_2.cxx:100-160", "src/lib/Painter_2.cxx:180-197", "src/exe/LB_Painting.cpp:152-155"]}
{"id": "C143", "title": "A concurrent set keeps its elements when it is converted", "statement": "A concurrent hash set that no thread is using is converted into a sequential one with the same elements and the right size; queries of and insertions into the sequential set behave as those of a set. In particular, the sets of the parts contain exactly the points of the parts.", "quantifier": "all numbers of threads, interleavings, keys, initial sizes, hash multipliers and distributions of points", "why_tests_cant": "The concurrent interleavings, hash multipliers and fill levels cannot be enumerated.", "anchors": ["include/datastructures/LP_Set.hxx:791-796", "include/load_balancing/GridIntersectionChecker.h:122-124", "include/datastructures/Growing_LP.hxx:58-60"]}
{"id": "C144", "title": "The size of a growing set is the number of its keys", "statement": "When no operation is running, size() of every handle of a growing concurrent set returns the number of different keys for which an insertion has returned.", "quantifier": "all numbers of threads and handles, all interleavings of insertion, growth and migration, all initial sizes and hash multipliers", "why_tests_cant": "The counter is increased after the slot is written, by inserting and by copying threads; a miscount needs a particular interleaving with growth.", "anchors": ["include/datastructures/Growing_LP.hxx:287-293", "include/datastructures/LP_Set.hxx:650", "include/LoadBalancedDCTriangulator.tpp:648-661"]}
{"id": "C145", "title": "A copy of a concurrent set or multimap has the same elements", "statement": "unsafe_copy() makes the target a copy of the source: enumeration, size and queries of the target are those of the source.", "quantifier": "all numbers of threads that filled the source, interleavings, keys, values, sizes and hash multipliers, with and without assertions", "why_tests_cant": "The hash multiplier is random for every object, so whether a key is found depends on values no test controls.", "anchors": ["include/datastructures/LP_Set.hxx:652-658", "include/datastructures/LP_MultiMap.hxx:525-533", "include/datastructures/LP_Set.hxx:26-31"]}
{"id": "C146", "title": "The merge and the triangulation of the edge get the right sets", "statement": "After the edges of all parts have been extracted, the sequential sets made of the two growing sets have the numbers of edge simplices and edge points as sizes and answer queries with whether an id is that of an edge simplex or an edge point.", "quantifier": "all numbers of threads and parts, interleavings, triangulations of the parts, sizes and hash multipliers", "why_tests_cant": "The interleavings of insertions and growth cannot be enumerated.", "anchors": ["src/lib/DCTriangulator.cpp:585-602", "include/LoadBalancedDCTriangulator.tpp:668-684", "include/datastructures/LP_Set.hxx:791-796"]}
{"id": "C147", "title": "A part consists of its finite points and the infinite points", "statement": "When a part is returned, the size of its set is the number of its finite points plus the number of infinite points, and every query returns whether the id is one of them.", "quantifier": "all dimensions, partition functions, point sets with at least two points per part, numbers of threads, interleavings and hash multipliers", "why_tests_cant": "The fill levels at which the sequential set is taken over depend on the interleaving; with a full set a query would not return.", "anchors": ["include/load_balancing/GridIntersectionChecker.h:122-153", "include/load_balancing/kWaySplitter.h:100-104", "include/load_balancing/sample_partitioner/HyperplaneBipartitioner.h:124-131"]}
