# Design

Formal model of ParDeTria (`/repo`, C++) in Lean 4 and proofs of the properties in
`properties.jsonl`. `MANIFEST.json` maps each property to its theorems.

## Layout

* `lean/Verif/Model/*.lean` – executable model, one file per C++ component; each definition cites
  file and lines in `/repo`.
* `lean/Verif/Lemmas/*.lean` – helper lemmas and invariants.
* `lean/Verif/Props/*.lean` – the property theorems (named `Cnn_...`), with non-triviality examples.
* `seeded/LOG.jsonl` – record of the wrong-program experiments.

## Conventions

* Loops that may not terminate in C++ are modelled with a fuel argument and a result in `Res`
  (`done`, `ub` for undefined behaviour, `timeout` for "has not returned within that many
  iterations"). `Returns f a` says that from some fuel on the result is `done a`; `Diverges f` that
  every fuel times out; `Undefined f` that some fuel reaches undefined behaviour. No property theorem
  mentions a particular fuel.
* Undefined behaviour (out-of-range shift, out-of-bounds index, ...) is a distinct outcome where a
  property depends on it.
* Hash multipliers (random odd numbers in C++) are arbitrary parameters.
* Concurrent code (`Model/Conc.lean`): an object is a shared state and a step function on thread-local
  states; one step is one atomic load, store, compare-and-swap or fetch-and-add, or a section under a
  mutex. `Reach` is every interleaving of any number of threads calling any operations that meet the
  precondition; histories record calls and returns; `Linearizable` is the usual definition by
  linearization points. Sequential consistency is assumed (see trusted base).
* Geometry: exact arithmetic over a linear ordered field (Lean/Mathlib type class) in place of `double`.
* Where the code violates a property the negation is proved with a concrete witness
  (`Cnn_..._violated`) and the part which does hold is kept as `..._partial`.

## Trusted base

* The Lean 4.33.0 kernel, and the standard axioms `propext`, `Classical.choice`, `Quot.sound` only.
* The reading of the C++ source that the model encodes (line references in the model).
* Sequential consistency of the atomics (the code uses default `memory_order` or mutexes in the
  places modelled; weaker orders where used are treated as sequentially consistent).
* Floating point arithmetic of the predicates: rounding to nearest, ties to even, `p` digits, no fused or extended precision operations. C88-C95
  have unbounded exponents, C97, C101 and C102 those of `double` and `float`. C102 assumes of the library functions that `pow(x, 2)` is exact for integers with a representable square
  and has a relative error of at most 2^-52, and that `sqrt` has a relative error of at most 2^-53. Elsewhere coordinates are elements of an ordered field.
* Not modelled: CGAL and the forks in `include/mods`, memory
  allocation, TBB internals (represented by arbitrary schedules/split trees), logging, clocks,
  painting, database output, command-line handling (apart from C112), KaHIP.

## What is modelled

| source in `/repo` | model | remarks |
|---|---|---|
| `include/datastructures/LP_Set.hxx` | `LpSet`, `HashIter`, `ConcSet`, `BulkMerge`, `Convert`, `ConvertEdges`, `Leaf`, `Copy` | Hash multiplier is a parameter. `Convert`, `ConvertEdges` and `Leaf` take over a concurrent set as a sequential one; `Copy` is `unsafe_copy`, also of multimaps. |
| `include/datastructures/LP_Map.hxx`, `LP_MultiMap.hxx` | `LpMap`, `LpMultiMap`, `ConcMap`, `MapMerge`, `ConcMultiMap`, `MultiMapMerge` | Rehashing and merging the concurrent maps is in `MapMerge` and of the concurrent multimap in `MultiMapMerge`; its `unsafe_copy` is in `Copy`. `Concurrent_LP_Map::_insert` is part of `MigrateMap`. |
| `include/datastructures/Growing_LP.hxx` | `Growing`, `GrowingSize`, `Migrate` (sets), `GrowingMM`, `MigrateMM` (multimaps), `GrowingMap`, `MigrateMap` (maps) | Sections under the mutex are single steps. The unprotected read of the shared pointer is one step. `Migrate.copied` is a ghost log. `at()` of the multimap reads the key before the value (the order of the two arguments is unspecified in C++). Memory of a new value array is arbitrary (`junk`). Lookups and iteration through handles are not modelled. |
| `include/datastructures/Bit_Set.hxx` | `BitSet`, `ConcBitSet` | `1 << 31` on `int` is read as the 32-bit word with the top bit set. |
| `include/datastructures/BlockedArray2.hxx`, `VectorAdapter2.hxx`, `at`/`operator[]` of `BlockedArray.hxx` | `BlockedArray2`, `Simplex` | `NDEBUG` set. |
| `include/datastructures/AABBTree.h`, `include/load_balancing/Grid.h`, `*IntersectionChecker.h`, `BoxUtils.h` | `Grid`, `BoundsRace`, `Sample`, `PTree` | Grid indices are unbounded integers. Fuel is the recursion depth. |
| `include/Geometry.h` (points, spheres, boxes, simplices, ids) | `Simplex`, `Box`, `Load`, `Locate`, `MakeIds` | Ids have 64, hashes 32, marks 8 bits. |
| `src/lib/Geometry.cpp` | `GeomCore`, `Verify`, `InSimplexFP`, `CircumFP` | `InSimplexFP` has the rounded operations of `inSimplex`, `CircumFP` those of the circumcircle and of `dBox::intersects` (with `pow` and `sqrt` as parameters), the others are exact. Adaptive predicates replaced by exact determinants, see C91, C93, C94 and C95 for the predicates themselves. Iteration orders are arguments. |
| `src/utils/Predicates.cpp` | `FP`, `Expansion`, `FesArr`, `Orient2`, `Insphere2`, `Orient3`, `Insphere3`, `ExactTests`, `SlowTests`, `ExpansionSums`, `LinearSum`, `Compress`, `Machine`, `IEEE` | Macros, constants, the functions for expansions, orientation test and incircle test in the plane and in space, and their versions without filters (`_exact`, `_slow`; not `_fast`). The code repeats blocks for the points; the model has one function of the numbers that differ. Literals are rounded like numbers of the template type (for `float` the products with the literal 2.0 in lines 1801-1809 and 3911-3918 are evaluated as `double` by the code, with fewer rounding errors than in the model); the constructor in `IEEE` has the types of the code. `Machine` is the same code with an arbitrary rounding function and with arrays of the declared sizes. |
| `include/load_balancing/Experiment.h`, `monitors/ComprehensiveMonitor.h`, `TimingMonitor.h` | `Report` | The text of the report and the accumulator; strings are lists of characters instead of bytes. JSON is specified in `Verif/Spec/Json.lean`. |
| `src/exe/LB_PointDump.cpp` 42-44 | `Dump` | Coordinates are rational; `std::stod` reads decimal numbers without exponent and rounds by a parameter. |
| `src/exe/Benchmark.cpp` 36-78, 111-272 | `Bench` | The generated runs as records and as traits; TBB's number of threads is a parameter. If the loops over points and threads both fail, the model reports the failure of the former. Of the execution, the order of the runs and the parameters read from the traits are modelled, not the measurements. `operator>>` into `uint` reads a text of digits only; the model calls any other text undefined. |
| `include/Partitioner.h`, `src/lib/Partitioner.cpp` | `Partitioner` | Id sets are finite sets. |
| `src/lib/CGALTriangulator.cpp` | `Collect`, `DCTri` (hypothesis `CgalOk`) | CGAL itself is a parameter whose result is assumed Delaunay where stated. |
| `src/lib/DCTriangulator.cpp` | `DC`, `Work`, `DCTri` | See below. |
| `include/LoadBalancedDCTriangulator.tpp` | `LB` | Shares `MergeTri` and `GetEdge` with `DC`. Provenance is represented by its length. |
| `include/load_balancing/*Partitioner.h`, `PartitionTree.h`, `kWaySplitter.h`, `sample_partitioner/*` | `PTree`, `Sample`, `Sampler`, `SampleLoop`, `Distribute`, `Draw`, `BoxEst` | Samples, planes, assignments and cuts are parameters, because they come from random numbers, Eigen or KaHIP. |
| `include/load_balancing/CommandLineInterface.h`, `src/exe/LB_Experiments.cpp` | `Options` | From the parsed options to the start of the experiment. |
| `include/utils/IndexHandler.h`, `Misc.h`, `StaticSort.h`, `MakeIds.h` | `IndexHandler`, `Misc`, `MakeIds` | |
| `include/utils/Timings.h`, `src/utils/Timings.cpp` | `Run`, `Counter`, `Profiler` | Traits, counters and measurements of one name. Host name and revision are parameters. |
| `include/utils/StringUtils.h`, `src/utils/DBConnection.cpp` (`bsonify`) | `Classify` | Regular expressions as in the code, `std::stol` and `std::stod` on texts without white space, exact decimal numbers. |
| `include/utils/Generator.h`, `include/load_balancing/*BubbleGenerator.h` | `Gen` | Random source as position in a stream. |

Not modelled: CGAL and its forks in `include/mods` (the worker loop `parallel_do.h` is represented by `Work`),
the rest of `Painter*` (see `Paint`), `SpatialSort*` (a permutation in `Gen`), the rest of `DBConnection`, `TaskTimer`, `CSV`, `VTuneAdapter`, `System`,
`load_balancing/monitors`, `dumpPartitionTree.h`, `PartitionTreeDump.h`, `KDTreeVectorOfVectorsAdaptor.h` (represented by `Nearest`),
the rest of `BlockedArray.hxx` and `VectorAdapter.hxx`, the other executables in `src/exe`.

### Simplifications by model

* `DC`, `LB`: a triangulation is a set `range` of simplex numbers with storage and one function per member of the simplex. Simplex
  numbers are unbounded. The concurrent hash sets and maps are sets (their implementation is the subject of C01-C24). The vertex hash is
  a parameter. One iteration of the merge loop over the edge simplices is atomic; the steps of `getEdge` and of the neighbour update are
  single accesses. Work lists may be processed in any order by any number of threads (`Work`).
* Delaunay theorems: points in general position are not assumed. Ties are broken by a height function `h` (`Tie`), which represents
  that the base triangulator and the merge agree on cospherical points. `Scene`, `SettingOk`, `BaseOk` and `CgalOk` collect the
  hypotheses: distinct points, infinite vertices outside of the data, the base triangulator returns the Delaunay triangulation.
* `Verify`: the iteration order of the simplices and of the multimap are arguments; chunks are processed one after another, since they
  only write to a report under a mutex.
* `BoundsRace`: a flag is set by a load and a store of the word that contains it.
* `PTree`: `fl` is any rounding to `float` that meets the stated conditions, `it` any iteration order of the id sets.
* `Sample`: `Nearest` is any function with the contract of the kd-tree; contents of uninitialised boxes are the parameter `u`.
* `Sampler`: the edge map is a map with atomic insertion, and `Assign.log` is a ghost log. Edge counters are unbounded except in the
  partial sums, whose overflow is undefined. Node numbers are below 2^31.
* `SampleLoop`: `Sampler` with the growing map in place of the atomic map. Weights are positive and stored as natural numbers, the handles of
  the threads exist from the beginning.
* `Distribute`: the handles of the threads exist from the beginning.
* `BoxEst`: the results of `std::sort` are all sorted permutations. Exact arithmetic.
* `Options`: the parser of boost is not modelled; generators and partitioners are only named.
* `Draw`: `std::sample` by its contract; `std::sqrt` and `std::log2` without rounding errors.
* `Gen`: `std::sqrt` is a parameter. A point that has not been assigned is `none`. The spatial sort permutes the points from 1 on.
  `fl24` rounds to 24 significant bits without under- or overflow.
* `Load`: a file is the list of its lines, `std::stod` is a parameter with exceptions.
* `Locate`: among equally distant simplices the priority queue may return any.

## Axioms

All theorems depend on a subset of `propext`, `Classical.choice` and `Quot.sound`, as `#print axioms` shows. The theorems are stated in
`lean/Verif/Props`; those of a property are listed in `MANIFEST.json`.

## Findings

Claims that the code violates, each with a theorem that gives the witness:

* C02: looking up a missing key in a default constructed `LP_Set` with one or two keys never returns.
* C04: `LP_Set::mergeFilter` does not pass on `cmp`, and accesses out of bounds for two empty sets.
* C07: `LP_Map::get` of an absent key hangs on a full table, which the growth test allows.
* C08: `LP_Map::contains` is false for a key with value 0.
* C09: `LP_MultiMap::get` hangs or misses values with fewer than two free slots.
* C11: `Concurrent_LP_Set::insert` of a present key reports `Full` on a full table.
* C13: `Concurrent_LP_Map::get` can return the value of a slot that has not been written.
* C15: `GrowingHashTable` loses an insertion into an already migrated table.
* C18: `Bit_Set` truncates ids beyond 32 bits.
* C19: the size after `Bit_Set::filter` counts ids outside of the argument's range.
* C20: `Bit_Set` batch construction: shift by 32, overwritten bits, wrong size.
* C25: `BlockedArray2` lookup with an empty block or illegal hint; C26: iteration with an empty block; C27: index equal to the capacity.
* C28: `static_insertion_sort_with_data` overflows its `short` index above 32768 elements.
* C29: `isPowN` decides divisibility.
* C32: the vertex hash shifts by the word width for ids divisible by 32.
* C33: `equalNeighbors` accepts different neighbour sets and is not transitive.
* C40: `sqDistanceToFace` is neither the squared distance nor ordered like it.
* C41: point statistics of negative coordinates start at the smallest positive number; C87: the same in `loadFromFile`.
* C42: the extend splitter reads out of bounds if all points coincide.
* C47: marks wrap after 254.
* C54: the infinite vertices are placed around the origin, not around the data.
* C56: `crossCheck` misses extra neighbours and lists only the first missing simplex of a chunk.
* C57: `verify` rejects cospherical points and accepts overlapping simplices, wrong neighbours, wrong infinite simplices.
* C61: the grid intersection checker misses points on the upper grid plane.
* C63: the k-way splitter divides by zero or converts a negative number to `size_t`.
* C67: centres of parts divide by one point too many.
* C68: `idTranslation[id]` in the parallel `makeGraph` is a data race; the reproducible variant then reads out of bounds.
* C69: the slope of the weight mapping is an `int`: with the inverted weights all edges have weight 1.
* C70: generators leave points unassigned; C84: `float` bubble index; C85: `std::bind` copies the random source; C86: bubbles of radius zero.
* C72: `BlockedArray2::load` dereferences null pointers.
* C73: `findNearestSimplex` may start at a removed slot, and never takes the start simplex as the nearest.
* C79: flags of different parts share words of `std::vector<bool>`.
* C80: the nearest sample point and bounds distance partitioners may hide a part inside of another one, and the result is not Delaunay; C81: the nearest sample point bipartitioner has no checker at the root.
* C90: sums and products of strongly nonoverlapping expansions need not be strongly nonoverlapping, as the comments of
  `fast_expansion_sum_zeroelim` and `scale_expansion_zeroelim` say. The weaker rule that the proofs use is kept.
* C92: `fast_expansion_sum_zeroelim` reads one element beyond the end of an array that its expansion fills, for example `B[4]` and `u[4]`
  in the last stage of the orientation test.
* C98: descriptions of runs with empty values or values that end with a space are read back wrongly; a text without `: ` is accepted with a
  wrong value; `ExperimentRun::operator==` is not symmetric and false for runs that have been started.
* C99: profiling counters lose increments.
* C100: `is_int` accepts a letter followed by digits, and `std::stol` then throws (a host that is called `n1`); 10.5 is stored as text.
* C101: `inSimplex` rejects points on the face opposite to the first vertex, for example (3,2) in the triangle (1,-5), (-4,2), (5,2); with
  coordinates of 17 to 21 bits it rejects interior points and accepts exterior points.
* C102: the circumcircle of the triangle (190411364,146236432), (190411364,146236431), (190411362,146236431), computed with `double`, has radius 0 around
  its first vertex. `getEdge` misses the triangle, even if (190411363,146236431), strictly inside of the circle, is in the other part.
  In space the tetrahedron (348216,229940,343312), (348216,229942,343312), (348216,229940,343314), (348218,229940,343312) has the computed radius 0.
* C104: if a growing multimap is migrated while a thread has claimed a slot but not stored its value, the new table has the key with an
  uninitialised value, and the inserted value is lost although `insert` returned true. C105 shows that the face index never grows in
  `buildWhereUsed`; in the parallel loop of `mergeTriangulation` it may, if many more simplices are inserted than there are edge simplices.
* C106: the same happens in the growing map, which is the edge map of `makeGraph`. A key can also be acknowledged as new twice, or be
  acknowledged and lost. The graph then has an entry that is never written. C68 is proved for a map whose insertions are atomic.
* C107: the edge map is constructed with `D * simplices.upperBound() - simplices.lowerBound()` slots. For the first triangulation of a process
  in the plane this is less than twice the number of edges it must hold, so the map grows while several threads insert.
* C108: consequence of C106 and C107 for `makeGraph`: on a sample of four points in the plane (the first triangulation of a process) two
  threads can return a graph in which node 0 has four neighbours instead of three, the additional one being node 0 itself with weight 0:
  both threads are told that the edge 0-1 is new and count it, but it is in the table only once. As long as the map does not grow, the graph is right.
* C109: consequence of C15 for the distribution of the points (`GridIntersectionChecker.h` and three more places): the set of a part is
  constructed for the average number of points but reports full at half of its slots, so it usually grows (`C109_grows`); on twelve points and
  two threads a point ends up in no part (`C109_violated`).
* C110: `generateSample` draws among all ids and removes the infinite ones afterwards, so the sample can be empty: in space with fewer than 81
  points (`sqrt`) or 512 points (`log`). The nearest sample point partitioner then reads an uninitialised index (`C110_violated`).
* C111: `estimateBoundingBoxes` assigns the length of the border in the loop (`=` in place of `+=`), so the box is not split in the dimension
  with the shortest border (`C111_violated`).
* C112: unknown names of distributions and partitioners dereference a null pointer, a missing dimension is read uninitialised, unknown edge
  weights give an empty function (`C112_violated`); `Experiment` moves the partitioner and calls its `info` in the arguments of one call
  (`C112_order_violated`).
* C113: a vertex of an edge simplex is lost when the set of the edge points grows while another thread inserts it; the simplex itself
  stays an edge simplex, so that it is deleted by the merge and not replaced (`C113_violated`).
* C114: a growing set doubles after eleven collisions in a row, and `a * x` masked keeps equal residues modulo powers of two equal: twelve ids
  with the same residue modulo `2^q` need more than `2^q` slots, whatever the random multiplier (`C114_violated`).
* C115: the strings of a report are not escaped; arguments with one quotation mark make the output invalid (`C115_violated`).
* C116: the accumulator of an experiment is not reset, the result of a second run contains the parts of the first (`C116_violated`). The
  accumulator is also declared after the triangulator, whose constructor gets a monitor that writes to it before it is constructed
  (Experiment.h:37-38, 52); this is not modelled.
* C117: the benchmark program never finishes generating its runs for `--minN 0`, `--minThreads 0` or `--maxThreads -2`, and the conversion of
  `double` to `uint` is undefined for `--maxN` from 4000000000 on (`C117_violated`).
* C119: the dump of points begins with the reserved entry 0 of the container, so that every file has the origin as additional point.
* C120: the reported number of simplices (`exact_size`) counts the slots of the array, among them those of the infinite cells of CGAL and of
  deleted simplices; the plain CGAL triangulators always report 1.
* C124: merging two empty concurrent multimaps leaves a table with no slots, and a following `contains` reads outside of it
  (`C124_merge_violated`).
* C129: `Bit_Set` iterators: `operator--` at the first id reads out of bounds, because `m_idx >= 0` holds for every unsigned number.
* C130: `Concurrent_LP_Map::_insert(key, value)` (called by nothing) has no exit from its loop and fills all free slots with the key.
* C132: the accurate grid checker keeps a pointer to the ids its maker is called with. In the nearest sample point bipartitioner these are,
  below the first level, members of a local tree (`std::move` into a `const Point_Ids &` does not move), so with `--bounds accurate-grid` and
  four or more parts the checkers of the grandchildren use a destroyed set (`C132_bipart_violated`).
* C133: the move constructor of `TreeNode` exchanges `cell_size` and `nChildren` with members that have no value yet; the accurate grid maker
  moves a tree for every partition (`C133_move_violated`). The maker also never deletes the grid checkers it releases (not modelled).
* C134: the indentation of the log is thread-local and is not restored after a wait. A thread that waits in `getEdge` may execute a task of an
  outer loop, `DEDENT` then underflows, and the next `LOG` builds a string of 2^32-1 tabs (`C134_steal_violated`; log level NORMAL or higher).
* C135: the measurements `edgePointsPerc`, `edgeSimplicesPerc` and `edgeDTPerc` are integer divisions, so a proper part is
  recorded as 0.
* C136: `HyperplaneBipartitioner` and `BinaryBoxEstimatingSamplePartitioner` register the triangulation of every sample
  under the same provenance `s0`. Provenances are numbers written one after the other; they are ambiguous for nodes with
  more than ten children, which only flat trees of the code have.
* C138: `LB_Experiments` calls `setLogLevel` before it parses the command line (`src/exe/LB_Experiments.cpp:69-73`), so that the
  option `--verbosity` has no effect. `DAC_Test` does it after parsing. A verbosity of -32768 or one outside of `short`
  is cut by the cast to the enumeration.
* C139: `ProgressDisplay::operator+=` reads `_count` for its result after it has released its lock
  (`include/utils/ProgressDisplay.h:58-60`), so that two calls may return the same count; the read is also a data race. The
  line is only ended if the count hits the expected count.
* C140: the `numpoints` of a report (`include/load_balancing/Experiment.h:124`) is `finite_size()`, which counts the entry 0
  that is no point: it is always one too many.
* C141: in `VectorAdapter::contains` (`include/datastructures/VectorAdapter.hxx:25`) the closing parenthesis is misplaced: the truth
  value for a finite id is compared with the size, so that every finite id is contained. The header is not included
  any more; `VectorAdapter2` has the comparison right (C34).
* C142: the loops that draw all points (`src/exe/LB_Painting.cpp:153`, `include/Painter.h:86-90`) also draw the entry 0 of the
  container. Seen next to it, not modelled: `tetradicColor` (`include/Painter.h:190-192`) casts before it masks, so that two
  of its four colours are equal; `LB_Painting` passes `std::move(partitioner)` and `partitioner->info()` as arguments of one call
  (`src/exe/LB_Painting.cpp:50-55`), whose order of evaluation is unspecified.
* C143: a full concurrent set of fixed size is converted to a sequential set in which the query for another key does not return.
* C144: after a late write into a table that is already copied, `size()` of a new handle is smaller than the number of successful insertions.
* C145: `unsafe_copy` does not copy the hash function, whose multiplier is random for every object, so keys of the copy are not found; for multimaps it does not copy the size, and its assertion fails unless the source is full. The function is not called in the repository.
* C146: after a late write the set of points that is triangulated as the edge lacks a vertex of an edge simplex (as in C113).
* C147: after a late write a finite point is in no part that is returned (as in C109).
* Seen next to C118, not modelled: `runExperiments.sh` passes `--run-number`, an option that the benchmark program does not have, so that
  `parse_command_line` throws; the `RESULT` line separates traits by one space although the value of `start-time` contains one.

## Plan per property

| id | property | model | proof |
|---|---|---|---|
| C01 | Growing hash set behaves as a mathematical set | LpSet: table as list of slots, `insert`/`contains`/`rehash` with the probe loop as a fuelled loop (running out of fuel = no return). | Invariant (probe path of each stored key has no gap, one slot per key, item count, capacity a power of two, a free slot exists) preserved by each call; refinement to Finset over any insert sequence. |
| C02 | A default constructed set can be queried | same model, constructor argument 0/1 | Expected FALSE in the code (capacity 1, then 2, is full): prove divergence for a concrete history for every fuel; `_partial`: holds from three distinct keys on / initial size >= 2. |
| C03 | Merging two hash sets yields their union | LpSet.merge | Invariant + fold over other's slots. |
| C04 | Filtering a hash set keeps exactly the requested keys | LpSet.filter, rehashFilter, mergeFilter | As C03; for cmp=true prove the negation (the flag is not passed to rehash). |
| C05 | Iterating a hash container visits each stored key once | iterator `_advance` loop over the slots | Induction over the slots. |
| C06 | Parallel range splitting neither loses nor duplicates elements | range type with is_divisible and split constructor; split tree as inductive type | Induction over the split tree. |
| C07 | Hash map get returns the last value inserted | LpMap with the integer growth test as written | Negation: completely full table, get of a missing key diverges; `_partial` for present keys and for absent keys while a slot is free. |
| C08 | Hash map membership agrees with insertion | LpMap.contains = get != 0 | Negation for value 0, `_partial` for non-zero values. |
| C09 | Multimap lookup returns exactly the values stored under the key | LpMultiMap insert/get/filtered range | Invariant proof for the hits, negation for the first==bound case. |
| C10 | Concurrent insertion into the lock-free set is linearizable | Concurrent set: threads as program counters, atomic load / CAS / counter increment as steps | Invariant over all reachable states of the interleaving semantics. |
| C11 | A fixed concurrent set never rejects keys while there is room | same | Invariant on item counter <= occupied slots. |
| C12 | Lookup concurrent with insertion never misses a completed insert | same + reader threads | Stability of probe paths: slots never revert to free. |
| C13 | Concurrent map never exposes a value that was not inserted | Concurrent map steps (key CAS, value store, key load, value load) | Values array initial content explicit; invariant proof. |
| C14 | Concurrent multimap stores every pair exactly once | Concurrent multimap steps | Invariant. |
| C15 | A growing concurrent table never loses an acknowledged insertion | Growing table protocol | Negation by an explicit schedule. `_partial`: no acknowledged insertion is lost in executions without late writes (a late write goes into a free slot that the migration has already handed out), by an invariant over all locations of insert, contains, grow and the migration; insertions that do not overlap each other, and executions without growth, have no late writes. |
| C16 | Block-wise cooperative migration copies every slot exactly once | Block claiming by fetch_add | Invariant over all schedules. |
| C17 | Bulk merge of concurrent sets produces the filtered union | unsafe_merge as sequence of claimed copies | Invariant / multiset argument. |
| C18 | Bit set tracks membership and cardinality | BitSet over list of 32-bit words (BitVec 32) | Refinement to Finset. |
| C19 | Bit set algebra | merge/filter | As C18; negations where the counter is stale. |
| C20 | Bit set batch construction | batchSet with shift-by-32 as undefined outcome | Negation with witness, `_partial` otherwise. |
| C21 | Bit set iteration enumerates the set bits in increasing order | iterator loop | Induction. |
| C22 | Concurrent test-and-set has exactly one winner | CAS loop steps | Invariant over all schedules. |
| C23 | Identifier allocation never hands out a live id twice | IndexHandler state machine | Invariant over all call sequences. |
| C24 | Concurrent identifier allocation is unique | atomic counter + concurrent queue steps | Invariant over all schedules. |
| C25 | Block lookup finds the slot of an id whatever blocks were merged | BlockedArray2 as sorted list of blocks, the written binary search | Loop invariant of binary search. |
| C26 | Block iteration visits every element once, in id order | iterator state machine | Induction. |
| C27 | Bounds-checked access throws for every index past the end | `at` as written | Negation at idx = size; `_partial`. |
| C28 | Sorting vertices keeps each neighbour attached to its vertex | insertion sort loops as written | Permutation + sortedness + stability. |
| C29 | Power-of-two helpers | BitVec/Nat versions of Misc.h | Number theory; negation for isPowN, nextPow2(0). |
| C30 | String splitting | getline splitting | Induction on the string. |
| C31 | Simplex vertex queries agree with the vertex set | loops over vertex arrays | Induction; Finset specification. |
| C32 | Fingerprints never separate equal simplices or faces | BitVec 32 rotations/xor | Algebra of xor over permutations; UB shift explicit. |
| C33 | Simplex equality is an equivalence that respects vertices | operator== as written | Negations by witness; `_partial` for valid ids. |
| C34 | Finite and infinite point ids partition the id space | 64 bit words | Arithmetic. |
| C35 | Sphere/box tests are exact | dBox over a linear ordered field, dimension Fin D | Algebra; clamp point argument. |
| C36 | Box subtraction | operator- as written | Case analysis. |
| C37 | Circumsphere is equidistant from all vertices | 2D and 3D formulas | field_simp/ring identities. |
| C38 | inSphere agrees with the distance to the circumcentre | determinant predicates as written + orientation | Polynomial identity. |
| C39 | inSimplex decides membership in the simplex | barycentric formulas | Linear algebra in 2D/3D. |
| C40 | sqDistanceToFace is the squared distance to the face's hyperplane | formula as written | Negation by witness; what it does compute. |
| C41 | Point statistics are the tight bounding box | reduction tree with the written initial values | Induction over split trees; negation for negative coordinates. |
| C42 | Each splitter partitions the finite points | four partitioners | Case analysis per point. |
| C43 | Part bounds cover their points and only overlap on boundaries | bounds computations | Ordered field. |
| C44 | Parts are strictly separable | half-space separation | Convexity. |
| C45 | Partition lookup | linear scan | Induction. |
| C46 | Edge extraction is independent of the schedule and complete | work-list transition system with marks, arbitrary schedules | Invariant + termination measure. |
| C47 | Work-list marks cannot be confused | uint8 marks | Negation by wrap-around; `_partial` below the bound. |
| C48 | The face index lists every inner neighbour of the edge | buildWhereUsed loop | Induction. |
| C49 | Merging keeps exactly the right simplices | merge as set of simplices with fingerprint search | Set equality. |
| C50 | The convex hull list is exactly the set of simplices with an infinite vertex | convexHull list through filter/merge | Invariant. |
| C51 | Neighbour repair restores correct adjacency | updateNeighbors work list | Invariant over schedules. |
| C52 | Divide and conquer produces the Delaunay triangulation | recursion with base triangulator as parameter satisfying the Delaunay specification | Geometric proof through power functions, any dimension. |
| C53 | The recursion terminates within the configured depth | recursion with provenance length | Induction on remaining depth. |
| C54 | Infinite vertices enclose the data | constructor formula | Negation by witness; `_partial` when the box contains the origin. |
| C55 | Simplex ids of concurrently built triangulations are disjoint | fetch_add | Invariant over schedules. |
| C56 | Cross-check reports validity only for equal triangulations | crossCheck loops | Set equality. |
| C57 | Verification accepts exactly the Delaunay triangulations | verify loops | Soundness. |
| C58 | Triangulation fingerprints ignore order | xor fold | Permutation invariance. |
| C59 | Grid cells tile space | Grid formulas over a floor field | Floor algebra. |
| C60 | AABB tree intersection equals brute force over its cells | TreeNode insert/split/intersects | Structural induction with alignment invariant. |
| C61 | Grid intersection checker never misses a point of its part | makeIntersectionChecker loop | Negation by witness; `_partial` for points not on the upper face. |
| C62 | Partition tree flattening keeps the leaves | PartitionTree inductive type | Structural induction. |
| C63 | Recursive tree partitioners assign every finite point to exactly one leaf | recursive partitioners | Structural induction. |
| C64 | k-way splitter produces the requested number of leaves | generateSplits loop | Loop invariant (product). |
| C65 | Hyperplane checker never misses a point of its side | n.c - offset + r > 0 | Cauchy-Schwarz. |
| C66 | Vector to box distance | BoxUtils formulas | Ordered field. |
| C67 | Partition centres are the means of their sample points | findPartitionCenters as written | Negation + what it computes. |
| C68 | Sample graph is a faithful CSR encoding of the sample triangulation | makeGraph | Set equality / prefix sums. |
| C69 | Edge weights lie in the advertised range | Mapper | Arithmetic. |
| C70 | Point generators fill every requested point | index loops of the generators | Negation for Bubble/SkewLine; proof for the others. |
| C71 | Point id sets enumerate the container | makePointIds loops | Set equality. |
| C72 | Serialization round-trips | save/load | Round trip. |
| C73 | Point location returns a simplex containing the point | priority search | Invariant. |
| C74 | Fixed-size hash sets work up to their capacity | LpSet with growing=false | Invariant; divergence for all fuel when full. |
| C75 | Hash set comparison | LpSet.eqSet | Cardinality argument. |
| C76 | Hash map merge | LpMap.merge, mergeFilter | Refinement to finite functions over client programs. |
| C77 | Parallel loops over the simplices visit every valid one exactly once | BlockedArray2 iterators, range_type | Positions ordered by id; induction over split trees. |
| C78 | Collecting the base triangulation | loop over cells with vertex sorting | Loop invariant; gives the hypothesis of C52. |
| C79 | Bounds of parts computed in parallel are the bounding boxes | Race: threads that share words of flags | Invariant of one thread over all interleavings; witness schedule. |
| C81 | Every node of a partition tree has an intersection checker | PTree.copy, builders | Induction over the trees; the bipartitioner violates it. |
| C82 | Checkers of partition trees never miss a point of their subtree | Chk, builders | Induction over the recursion; boxes by C35/C43, planes by Cauchy-Schwarz. |
| C80 | Load-balanced triangulator returns the Delaunay triangulation | LBTri, lbParams, PTree builders | Induction over the tree; each level by the merge theorem of C52 with the tree's checkers (C82) and separation (C83). |
| C83 | Siblings in partition trees are separated | PTree builders | Half-spaces: coordinates, planes, bisectors. |
| C84 | Every point of the bubble generators belongs to a bubble | Gen | GenCenter, GenLB |
| C85 | Generators advance the random source | Gen | GenBubble |
| C86 | Every bubble has a positive radius | Gen | GenLB |
| C87 | Loading points returns their bounding box | Load | Load |
| C88 | Error-free transformations of the predicates | FP | EFT |
| C89 | Constants of the predicates | FP | EFT |
| C90 | Arithmetic with expansions is exact | Expansion | Expansion |
| C91 | Orientation test in the plane is exact | Orient2 | Orient2 |
| C92 | Sums of expansions stay inside their arrays | FesArr | FesArr |
| C93 | The adaptive incircle test is exact | Insphere2 | Insphere2 |
| C94 | The adaptive orientation test in space is exact | Orient3 | Orient3 |
| C95 | The adaptive insphere test in space is exact | Insphere3 | Insphere3 |
| C96 | The arrays of the adaptive tests are large enough | Machine | MachineLen, Arrays |
| C97 | Adaptive tests with the exponents of double and float | IEEE, Machine | Every intermediate number of the tests is a polynomial of known degree in the coordinates: a multiple of a power of two and bounded. In this range rounding with bounded exponents is rounding with unbounded exponents, so that C91, C93, C94 and C95 apply. |
| C98 | Descriptions of experiments are read back as they were written | Verif/Model/Run.lean | Verif/Props/Run.lean |
| C99 | Profiling counters count every event | Verif/Model/Counter.lean | Verif/Props/Counter.lean |
| C100 | Values of traits are stored under the right type | Verif/Model/Classify.lean | Verif/Props/Classify.lean |
| C101 | Point in simplex test with double and float | Verif/Model/InSimplexFP.lean | All sums and products of integers are exact; the reciprocal and the products with it have a relative error, which is smaller than the distance of the coordinates from 0 and 1. |
| C102 | Circumsphere test of the border with double | Verif/Model/CircumFP.lean | All numerators are exact integers; a point strictly inside of the sphere is inside by at least the reciprocal of the denominator, which exceeds the rounding errors of center, radius and distance. |
| C103 | Migrating a multimap copies every pair exactly once | Verif/Model/MigrateMM.lean | A bag invariant per pair: copies in the new table plus unread and held copies is the old multiplicity. The insertion steps are simulated by the model of C14. |
| C104 | A growing multimap keeps every inserted pair | Verif/Model/GrowingMM.lean | Simulation by the model of C14 while the table does not grow; the violation is an execution of two threads. |
| C105 | The face index does not grow in buildWhereUsed | Verif/Model/DC.lean (Verif/Props/IndexSize.lean) | Potential argument over the work list: insertions done plus insertions still owed by queue and active bodies. |
| C106 | A growing map acknowledges each key once and keeps its value | Verif/Model/MigrateMap.lean, Verif/Model/GrowingMap.lean | Simulation by the model of C13 (migration always, growing map while it does not grow); acknowledgements of a key plus pending ones equal the number of its slots; the violations are executions of two threads. |
| C107 | The edge map never grows while the sample graph is built | Verif/Model/GrowingMap.lean, Verif/Model/Sampler.lean | Invariant of the executions with one table: items plus insertions that passed the test are below half the slots plus the number of threads; double counting of the edges of the triangles. The negation holds for every triangulation with many finite triangles. |
| C108 | The sample graph is right with the concurrent edge map of the code | Verif/Model/SampleLoop.lean | The interleaved loop is an execution of the growing map (C106); at the end its table, the counters and those of an execution of the model with an atomic map (C68) agree. The negation when the map grows is a computed execution of two threads on a sample of four points. |
| C109 | No point is lost when the points are distributed to the parts concurrently | Verif/Model/Distribute.lean | The loop is an execution of one growing set per part with its own handle for every thread. With timely writes, with one thread or without growth the invariant of C15 says what the last table holds. A bound on the items of the first table shows that a full part makes its set grow. The negation is a computed execution of two threads on twelve points. |
| C110 | The drawn sample is not empty | Verif/Model/Draw.lean | std::sample by its contract; counting of finite and infinite ids; the worst case draws only infinite ids. |
| C111 | The box of a node is split in the middle of the border of the two parts | Verif/Model/BoxEst.lean | Loops as foldlM with checked accesses; sorted lists split at the median; the assignment in place of the sum refutes the choice of the dimension. |
| C112 | A command line is carried out as requested or rejected | Verif/Model/Options.lean | Case analysis over the names; the outcomes with undefined behaviour are characterised exactly. |
| C113 | The concurrent edge extraction loses nothing | Verif/Model/EdgeLoop.lean, Verif/Model/Growing.lean, Verif/Model/DC.lean | The ids acknowledged by the growing sets are attributed to the parts; with them every step is a step of the loop of Model/DC (simulation), and the table at the end holds the acknowledged ids if no write is late. |
| C114 | A growing set stays small | Verif/Model/Growing.lean, Verif/Model/Migrate.lean | Symbolic execution of one thread alone: probing, writing, growing and migrating; a table stays within a power of two as long as the residues differ, and twelve equal residues make a run of eleven taken slots. |
| C115 | The report of an experiment is valid JSON | Verif/Model/Report.lean, Verif/Spec/Json.lean | Derivation in the grammar of RFC 8259 built along the output; the grammar is shown to be unambiguous. Negation: without backslashes the number of quotation marks of a JSON text is even. |
| C116 | Each result of a report describes its run | Verif/Model/Report.lean | The accumulator is computed from the calls by induction; the negation uses that a JSON text denotes only one value. |
| C117 | The benchmark generates every requested experiment exactly once | Model/Bench.lean | Props/Bench.lean |
| C118 | Each benchmark run is executed once with the parameters it was generated with | Model/Bench.lean | Props/BenchRun.lean |
| C119 | Dumped points are loaded as they were generated | Model/Dump.lean | Props/Dump.lean |
| C120 | The reported number of simplices is that of the triangulation | Model/BlockedArray2.lean, Model/Collect.lean | Props/Count.lean |
| C121 | Orientation and incircle tests without filters are exact | Model/ExactTests.lean, Model/Insphere3.lean | Props/ExactTests.lean |
| C122 | The other functions for expansions compute exactly | ExpansionSums | ExpansionSums |
| C123 | Rehashing and merging the concurrent map keep its entries | MapMerge | MapMerge |
| C124 | Rehashing and merging the concurrent multimap keep its entries | MultiMapMerge | MultiMapMerge |
| C125 | Compressing an expansion keeps its value and leaves nonadjacent components | Compress | Compress |
| C126 | The sum of expansions in linear time is exact and does not overlap | LinearSum | LinearSum |
| C127 | Exact tests on differences | SlowTests | SlowTests |
| C128 | Multiplying an expansion keeps its components apart | Expansion, ExpansionSums | ScaleGap |
| C129 | Walking a bit set backwards | BitSetBack | BitSetBack |
| C130 | The key-value insertion of the concurrent map ends | MapRaw | MapRaw |
| C131 | The file of the sample graph is a valid METIS graph | GraphFile, Sampler, Report | GraphFile |
| C132 | Accurate grid checkers refer to point sets that exist | AccurateLife, PTree | AccurateLife |
| C133 | A copy of a grid tree is an equal and independent tree | TreeCopy | TreeCopy |
| C134 | The indentation of the log belongs to the call that logs | LogIndent | LogIndent |
| C135 | The averages of the profiler are those of the measurements | Profiler | Profiler |
| C136 | The base triangulations of a report have different provenances | Provenance | Provenance |
| C137 | The distance to a face concerns the face opposite to the given vertex | SimplexQuery | SimplexQuery |
| C138 | The requested verbosity decides which lines of the log are shown | LogLevel | LogLevel |
| C139 | The progress bar is full exactly when the expected count is reached | Progress | Progress |
| C140 | The reported number of points is the number of points | Container | Container |
| C141 | The older point container claims exactly the ids it can access | Container | Container |
| C142 | A picture is similar to the triangulation it shows | Paint | Paint |
| C143 | A concurrent set keeps its elements when it is converted | Verif/Model/Convert.lean | Verif/Props/Convert.lean |
| C144 | The size of a growing set is the number of its keys | Model/Growing.lean, Model/GrowingSize.lean | Props/GrowingSize.lean (Lemmas/GrowingItems.lean) |
| C145 | A copy of a concurrent set or multimap has the same elements | Model/Copy.lean | Props/Copy.lean |
| C146 | The merge and the triangulation of the edge get the right sets | Model/ConvertEdges.lean | Props/ConvertEdges.lean |
| C147 | A part consists of its finite points and the infinite points | Model/Leaf.lean | Props/Leaf.lean (Lemmas/GrowingLen.lean) |
