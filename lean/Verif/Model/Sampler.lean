import Verif.Model.Sample
import Mathlib.Algebra.Order.Floor.Ring
import Mathlib.Data.List.Sort

/-!
# The graph of a sample

`/repo/include/load_balancing/sample_partitioner/Sampler.h`: `Mapper` (22-40), `Graph` (42-78), `generateIdTranslation`
(186-195), `sanitizeAdjacencyList` (197-229), `adjacencyListToGraph` (231-251), `makeGraph_sequential` (253-292) and `makeGraph`
(294-409).

Floating point numbers are elements of an ordered field. The concurrent edge map of `makeGraph` is a map with an atomic
`insert` (see C10, C13 and C15 for the real one); the loops over simplices and edges are any distribution of them to threads.
The random sample, its triangulation and the partitioner KaHIP are not modelled.
-/
namespace Verif
namespace Samp

/-! ### Mapper -/

section
variable {K : Type} [Field K] [LinearOrder K] [FloorRing K]

/-- Conversion of a floating point number to `int`: rounds towards zero; undefined (`none`) if the result is out of range.
(include/load_balancing/sample_partitioner/Sampler.h:38) -/
def toInt (x : K) : Option Int :=
  let z := if 0 ≤ x then ⌊x⌋ else ⌈x⌉
  if -2 ^ 31 ≤ z ∧ z < 2 ^ 31 then some z else none

/-- `Mapper<Precision, int>`. (include/load_balancing/sample_partitioner/Sampler.h:36-39) -/
structure Mapper (K : Type) where
  minIn : K
  maxIn : K
  minOut : Int
  maxOut : Int
  scale : Int

/-- The constructor: the slope is converted to `int`. Division by zero yields no number that fits into `int`.
(include/load_balancing/sample_partitioner/Sampler.h:25-29) -/
def Mapper.make (minIn maxIn : K) (minOut maxOut : Int) : Option (Mapper K) :=
  if maxIn - minIn = 0 then none
  else (toInt (((maxOut - minOut : Int) : K) / (maxIn - minIn))).map fun s => ⟨minIn, maxIn, minOut, maxOut, s⟩

/-- `operator()`; `std::clamp` is undefined if the bounds are exchanged.
(include/load_balancing/sample_partitioner/Sampler.h:31-34) -/
def Mapper.apply (m : Mapper K) (x : K) : Option Int :=
  if m.maxIn < m.minIn then none
  else
    let c := if x < m.minIn then m.minIn else if m.maxIn < x then m.maxIn else x
    toInt ((c - m.minIn) * (m.scale : K) + (m.minOut : K))

/-- The mapper of `makeGraph` for the weight function `f`.
(include/load_balancing/sample_partitioner/Sampler.h:260-263, 301-304) -/
def weightMapper (f : K → K) : Option (Mapper K) := Mapper.make (min (f 0) (f 1)) (max (f 0) (f 1)) 1 99

/-- Weight of the edge of two points: 1 for uniform edges (`f = none`).
(include/load_balancing/sample_partitioner/Sampler.h:276-282, 337-343) -/
def edgeWeight {D : Nat} (f : Option (K → K)) (maxDist : K) (a b : Vec D K) : Option Int :=
  match f with
  | none => some 1
  | some f => (weightMapper f).bind fun m => m.apply (f (Vecs.lenSq (Vecs.sub a b) / maxDist))

end

/-! ### Graph -/

/-- `Graph`. (include/load_balancing/sample_partitioner/Sampler.h:59-61) -/
structure Graph where
  recs : List Nat
  adj : List Nat
  wts : List Int
  deriving DecidableEq, Repr

/-- `generateIdTranslation` for the ids in the order of their iteration.
(include/load_balancing/sample_partitioner/Sampler.h:186-195) -/
def translation (ids : List Nat) (id : Nat) : Option Nat := if id ∈ ids then some (ids.idxOf id) else none

/-- Value of `idTranslation[id]`: an id that is missing is inserted with value 0.
(include/load_balancing/sample_partitioner/Sampler.h:271, 274, 332, 335) -/
def ix (tr : Nat → Option Nat) (id : Nat) : Nat := (tr id).getD 0

/-- An edge: source, target, weight. (include/load_balancing/sample_partitioner/Sampler.h:197-200) -/
abbrev Edge := Nat × Nat × Int

/-- The edges of one simplex with vertices `vs`, in order. (include/load_balancing/sample_partitioner/Sampler.h:270-288, 331-352) -/
def pairs (D : Nat) (tr : Nat → Option Nat) (w : Nat → Nat → Int) (vs : List Nat) : List Edge :=
  vs.flatMap fun p =>
    if Part.isFinite D p then
      vs.filterMap fun q => if Part.isFinite D q && ix tr p != ix tr q then some (ix tr p, ix tr q, w p q) else none
    else []

/-- The ids looked up for one simplex, in order. (include/load_balancing/sample_partitioner/Sampler.h:331-335) -/
def lookups (D : Nat) (vs : List Nat) : List Nat :=
  vs.flatMap fun p => p :: if Part.isFinite D p then vs else []

/-- `std::unique` with `operator==` of pairs: drops every element equal to the previous kept one.
(include/load_balancing/sample_partitioner/Sampler.h:216-217) -/
def unique : List (Nat × Int) → List (Nat × Int)
  | [] => []
  | [a] => [a]
  | a :: b :: l => if a = b then unique (b :: l) else a :: unique (b :: l)

/-- `sanitizeAdjacencyList` for one node. `std::sort` is not stable, the order of entries with the same target is that of
insertion here. (include/load_balancing/sample_partitioner/Sampler.h:207-219) -/
def sanitize (l : List (Nat × Int)) : List (Nat × Int) := unique (l.insertionSort fun a b => a.1 ≤ b.1)

/-- The loop of `adjacencyListToGraph`. (include/load_balancing/sample_partitioner/Sampler.h:238-248) -/
def toGraphLoop : List (List (Nat × Int)) → Nat → Graph → Graph
  | [], _, g => { g with recs := g.recs ++ [g.adj.length] }
  | l :: ls, cur, g =>
    toGraphLoop ls (cur + l.length)
      ⟨g.recs ++ [cur], g.adj ++ l.map Prod.fst, g.wts ++ l.map Prod.snd⟩

/-- `adjacencyListToGraph`. (include/load_balancing/sample_partitioner/Sampler.h:231-251) -/
def toGraph (ls : List (List (Nat × Int))) : Graph := toGraphLoop ls 0 ⟨[], [], []⟩

/-- The loop over the edges: appends them to the lists of their source; `none`: source out of range.
(include/load_balancing/sample_partitioner/Sampler.h:283) -/
def pushAll : List Edge → List (List (Nat × Int)) → Option (List (List (Nat × Int)))
  | [], ls => some ls
  | (i, j, w) :: es, ls => if i < ls.length then pushAll es (ls.modify i fun l => l ++ [(j, w)]) else none

/-- `makeGraph_sequential` for simplices with the vertices `S`. (include/load_balancing/sample_partitioner/Sampler.h:253-292) -/
def makeGraphSeq (D n : Nat) (tr : Nat → Option Nat) (w : Nat → Nat → Int) (S : List (List Nat)) : Option Graph :=
  (pushAll (S.flatMap (pairs D tr w)) (List.replicate n [])).map fun ls => toGraph (ls.map sanitize)

/-! ### makeGraph: first loop -/

/-- Key of an edge, 64-bit arithmetic. (include/load_balancing/sample_partitioner/Sampler.h:340) -/
def key (i j : Nat) : Nat := ((i <<< 32) % 2 ^ 64 + j) % 2 ^ 64

/-- Source and target of a key. (include/load_balancing/sample_partitioner/Sampler.h:369-370) -/
def unkey (k : Nat) : Nat × Nat := (k >>> 32, k - (k >>> 32) <<< 32)

/-- Initial size of the edge map of a triangulation with the bounds `lower` and `upper` of the ids of its simplices.
(include/load_balancing/sample_partitioner/Sampler.h:315) -/
def edgeMapSize (D lower upper : Nat) : Nat := D * upper - lower

/-- `insert(k, w)` of the edge map: an existing value is overwritten. (include/datastructures/LP_Map.hxx:284-325) -/
def putKey (k : Nat) (w : Int) : List (Nat × Int) → List (Nat × Int)
  | [] => [(k, w)]
  | e :: m => if e.1 = k then (k, w) :: m else e :: putKey k w m

/-- State of the first loop with `T` threads: edge map, `graph.nodeRecords`, edges the threads have still to process and
the counters they have still to increment. (include/load_balancing/sample_partitioner/Sampler.h:318-354) -/
structure Collect (T : Nat) where
  map : List (Nat × Int)
  recs : List Nat
  todo : Fin T → List Edge
  inc : Fin T → Option Nat

/-- A thread inserts its next edge into the map. (include/load_balancing/sample_partitioner/Sampler.h:344) -/
def Collect.insert {T : Nat} (s : Collect T) (t : Fin T) (e : Edge) (l : List Edge) : Collect T :=
  { s with
    map := putKey (key e.1 e.2.1) e.2.2 s.map
    todo := Function.update s.todo t l
    inc := Function.update s.inc t (if ∃ x ∈ s.map, x.1 = key e.1 e.2.1 then none else some e.1) }

/-- A thread increments the counter of a node. (include/load_balancing/sample_partitioner/Sampler.h:346) -/
def Collect.count {T : Nat} (s : Collect T) (t : Fin T) (i : Nat) : Collect T :=
  { s with recs := s.recs.modify (i + 1) (· + 1), inc := Function.update s.inc t none }

/-- Steps of the threads in any order. (include/load_balancing/sample_partitioner/Sampler.h:322-354) -/
inductive Collect.Step {T : Nat} : Collect T → Collect T → Prop where
  | insert (s : Collect T) (t : Fin T) (e : Edge) (l : List Edge) : s.inc t = none → s.todo t = e :: l → Step s (s.insert t e l)
  | count (s : Collect T) (t : Fin T) (i : Nat) : s.inc t = some i → i + 1 < s.recs.length → Step s (s.count t i)

/-- A thread is about to write out of bounds. (include/load_balancing/sample_partitioner/Sampler.h:346) -/
def Collect.undef {T : Nat} (s : Collect T) : Prop := ∃ t i, s.inc t = some i ∧ s.recs.length ≤ i + 1

/-- All threads are done. (include/load_balancing/sample_partitioner/Sampler.h:354) -/
def Collect.final {T : Nat} (s : Collect T) : Prop := ∀ t, s.inc t = none ∧ s.todo t = []

/-- Beginning of the loop. (include/load_balancing/sample_partitioner/Sampler.h:320) -/
def Collect.init {T : Nat} (n : Nat) (work : Fin T → List Edge) : Collect T :=
  ⟨[], List.replicate (n + 1) 0, work, fun _ => none⟩

/-! ### makeGraph: prefix sums -/

/-- `std::partial_sum` in place, with the sum up to here; `none`: overflow of `int`. (include/load_balancing/sample_partitioner/Sampler.h:358) -/
def partialSum : Nat → List Nat → Option (List Nat)
  | _, [] => some []
  | a, x :: l => if a + x < 2 ^ 31 then (partialSum (a + x) l).map fun r => (a + x) :: r else none

/-! ### makeGraph: second loop -/

/-- State of the second loop with `T` threads: `index`, `graph.adjacency`, `graph.edgeWeights`, entries of the map the
threads have still to process and stores they have still to do (position, target, weight). `log` is auxiliary, not part of the
code: the entries taken so far with their positions. (include/load_balancing/sample_partitioner/Sampler.h:361-384) -/
structure Assign (T : Nat) where
  index : List Nat
  adj : List Nat
  wts : List Int
  todo : Fin T → List (Nat × Int)
  put : Fin T → Option (Nat × Nat × Int)
  log : List (Nat × Nat × Int)

/-- A thread takes the next position of the source of its next entry. The position depends on `graph.nodeRecords`.
(include/load_balancing/sample_partitioner/Sampler.h:368-379) -/
def Assign.take {T : Nat} (s : Assign T) (t : Fin T) (x : Nat × Int) (l : List (Nat × Int)) (base off : Nat) : Assign T :=
  { s with
    index := s.index.modify (unkey x.1).1 (· + 1)
    todo := Function.update s.todo t l
    put := Function.update s.put t (some (base + off, (unkey x.1).2, x.2))
    log := s.log ++ [(base + off, x)] }

/-- A thread stores target and weight. (include/load_balancing/sample_partitioner/Sampler.h:381-382) -/
def Assign.store {T : Nat} (s : Assign T) (t : Fin T) (x : Nat × Nat × Int) : Assign T :=
  { s with adj := s.adj.set x.1 x.2.1, wts := s.wts.set x.1 x.2.2, put := Function.update s.put t none }

/-- Steps of the threads in any order. (include/load_balancing/sample_partitioner/Sampler.h:364-384) -/
inductive Assign.Step {T : Nat} (recs : List Nat) : Assign T → Assign T → Prop where
  | take (s : Assign T) (t : Fin T) (x : Nat × Int) (l : List (Nat × Int)) (base off : Nat) : s.put t = none → s.todo t = x :: l →
      recs[(unkey x.1).1]? = some base → s.index[(unkey x.1).1]? = some off → Step recs s (s.take t x l base off)
  | store (s : Assign T) (t : Fin T) (x : Nat × Nat × Int) : s.put t = some x → x.1 < s.adj.length → x.1 < s.wts.length →
      Step recs s (s.store t x)

/-- A thread is about to access an array out of bounds. (include/load_balancing/sample_partitioner/Sampler.h:368-382) -/
def Assign.undef {T : Nat} (recs : List Nat) (s : Assign T) : Prop :=
  (∃ t x l, s.put t = none ∧ s.todo t = x :: l ∧ (recs.length ≤ (unkey x.1).1 ∨ s.index.length ≤ (unkey x.1).1)) ∨
  ∃ t x, s.put t = some x ∧ (s.adj.length ≤ x.1 ∨ s.wts.length ≤ x.1)

/-- All threads are done. (include/load_balancing/sample_partitioner/Sampler.h:384) -/
def Assign.final {T : Nat} (s : Assign T) : Prop := ∀ t, s.put t = none ∧ s.todo t = []

/-- Beginning of the loop: the arrays have been resized to the number `m` of edges. `size` is `idTranslation.size()`, at
least the number of nodes. (include/load_balancing/sample_partitioner/Sampler.h:359, 363) -/
def Assign.init {T : Nat} (size m : Nat) (work : Fin T → List (Nat × Int)) : Assign T :=
  ⟨List.replicate size 0, List.replicate m 0, List.replicate m 0, work, fun _ => none, []⟩

/-- `makeGraph` returns `g`: some interleaving of the first loop, the prefix sums and some interleaving of the second loop.
`work` and `ework` are the distributions of the edges and of the entries of the map to the threads. `size` is the size of
`idTranslation` after the first loop. (include/load_balancing/sample_partitioner/Sampler.h:294-384, 408) -/
inductive MakeGraph (D n : Nat) (tr : Nat → Option Nat) (w : Nat → Nat → Int) (S : List (List Nat)) (size : Nat) : Graph → Prop where
  | intro (T : Nat) (work : Fin T → List Edge) (c : Collect T) (recs : List Nat) (ework : Fin T → List (Nat × Int)) (a : Assign T) :
      ((List.ofFn work).flatten).Perm (S.flatMap (pairs D tr w)) →
      Relation.ReflTransGen Collect.Step (Collect.init n work) c → c.final →
      partialSum 0 c.recs = some recs →
      ((List.ofFn ework).flatten).Perm c.map →
      Relation.ReflTransGen (Assign.Step recs) (Assign.init size (recs.getLast?.getD 0) ework) a → a.final →
      MakeGraph D n tr w S size ⟨recs, a.adj, a.wts⟩

/-! ### makeGraph: sorting (REPRODUCIBLE) -/

/-- Inner loop: moves the entries larger than the value one place up.
(include/load_balancing/sample_partitioner/Sampler.h:395-398) -/
def holeLoop (lo v : Nat) : Nat → List Nat → List Int → Option (Nat × List Nat × List Int)
  | 0, adj, wts => some (0, adj, wts)
  | h + 1, adj, wts =>
    if lo < h + 1 then
      match adj[h]?, wts[h]? with
      | some a, some x => if v < a then holeLoop lo v h (adj.set (h + 1) a) (wts.set (h + 1) x) else some (h + 1, adj, wts)
      | _, _ => none
    else some (h + 1, adj, wts)

/-- One round of the middle loop: inserts the entry at position `i`.
(include/load_balancing/sample_partitioner/Sampler.h:391-401) -/
def sortStep (lo i : Nat) (g : List Nat × List Int) : Option (List Nat × List Int) :=
  match g.1[i]?, g.2[i]? with
  | some v, some x => (holeLoop lo v i g.1 g.2).map fun r => (r.2.1.set r.1 v, r.2.2.set r.1 x)
  | _, _ => none

/-- The middle loop for the node with the entries from `lo` to `hi`.
(include/load_balancing/sample_partitioner/Sampler.h:390-402) -/
def sortNode (lo hi : Nat) (g : List Nat × List Int) : Option (List Nat × List Int) :=
  ((List.range' lo (hi - lo)).foldl (fun r i => r.bind (sortStep lo i)) (some g))

/-- One round of the outer loop: bounds of the entries of node `k`.
(include/load_balancing/sample_partitioner/Sampler.h:390) -/
def sortAt (recs : List Nat) (k : Nat) (x : List Nat × List Int) : Option (List Nat × List Int) :=
  match recs[k]?, recs[k + 1]? with
  | some lo, some hi => sortNode lo hi x
  | _, _ => none

/-- The outer loop for the nodes `0 … size - 1`; `none`: access out of bounds. The threads work on different nodes, whose
entries are disjoint. (include/load_balancing/sample_partitioner/Sampler.h:388-404) -/
def reproducible (size : Nat) (g : Graph) : Option Graph :=
  ((List.range size).foldl (fun r k => r.bind (sortAt g.recs k)) (some (g.adj, g.wts))).map fun x => { g with adj := x.1, wts := x.2 }

/-! ### makeGraph: look-ups in the shared translation -/

/-- State of the look-ups `idTranslation[id]` of `T` threads: keys of the hash map, ids still to look up, ids being
inserted. (include/load_balancing/sample_partitioner/Sampler.h:331-335) -/
structure Lookup (T : Nat) where
  keys : Finset Nat
  todo : Fin T → List Nat
  ins : Fin T → Option Nat

/-- `operator[]` of `std::unordered_map`, not synchronised: a look-up that finds its key, the beginning and the end of an
insertion. (include/load_balancing/sample_partitioner/Sampler.h:332, 335) -/
inductive Lookup.Step {T : Nat} : Lookup T → Lookup T → Prop where
  | find (s : Lookup T) (t : Fin T) (i : Nat) (l : List Nat) : s.ins t = none → s.todo t = i :: l → i ∈ s.keys →
      Step s { s with todo := Function.update s.todo t l }
  | begin (s : Lookup T) (t : Fin T) (i : Nat) (l : List Nat) : s.ins t = none → s.todo t = i :: l → i ∉ s.keys →
      Step s { s with todo := Function.update s.todo t l, ins := Function.update s.ins t (some i) }
  | commit (s : Lookup T) (t : Fin T) (i : Nat) : s.ins t = some i →
      Step s { s with keys := insert i s.keys, ins := Function.update s.ins t none }

/-- A data race: one thread is inside of an insertion while another one is, too, or is about to look up an id.
(include/load_balancing/sample_partitioner/Sampler.h:332, 335) -/
def Lookup.race {T : Nat} (s : Lookup T) : Prop :=
  ∃ t u, t ≠ u ∧ s.ins t ≠ none ∧ (s.ins u ≠ none ∨ s.todo u ≠ [])

/-- Beginning of the loop for the simplices `S t` of thread `t`. (include/load_balancing/sample_partitioner/Sampler.h:322-335) -/
def Lookup.init {T : Nat} (D : Nat) (ids : Finset Nat) (S : Fin T → List (List Nat)) : Lookup T :=
  ⟨ids, fun t => (S t).flatMap (lookups D), fun _ => none⟩

end Samp
end Verif
