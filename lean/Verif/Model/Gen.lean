import Verif.Model.Sample
import Mathlib.Algebra.Order.Floor.Ring
import Mathlib.Data.List.Sort
import Mathlib.Data.Int.Log

/-!
# Point generators

`/repo/include/utils/Generator.h` and `/repo/include/load_balancing/UnboundBubbleGenerator.h`, `PatchBubbleGenerator.h`,
`MaliciousBubbleGenerator.h`.

Exact arithmetic over an ordered field. The random source is a position in a stream: `r pos` is the number that a distribution
`r` returns if the source is in the state `pos`, and the state is `pos + 1` afterwards. `generate` gets the source by reference; the
result of a generator contains the state of the caller's source after the call. `std::sqrt` is a function `sqrt`. A point that has not been assigned
is `none`. The last step of `generate`, the spatial sort by CGAL, permutes the points from 1 on.
-/
namespace Verif
namespace Gen
open Vecs
variable {D : Nat} {K : Type} [Field K] [LinearOrder K]

/-- The points; `none`: coordinates are not initialised. (include/Geometry.h:201, the constructor does not set the coordinates) -/
abbrev Pts (D : Nat) (K : Type) := List (Option (Vec D K))

/-- `_init`: the container is created with point 0 at the origin and enlarged to `n + 1` points.
(include/utils/Generator.h:24-34, include/Geometry.h:240-248, include/datastructures/VectorAdapter2.hxx:123-126) -/
def init (n : Nat) : Pts D K := some (fun _ => 0) :: List.replicate n none

/-- `points[i] = p`. (include/datastructures/VectorAdapter2.hxx:30-41) -/
def put (i : Nat) (p : Option (Vec D K)) (pts : Pts D K) : Res (Pts D K) :=
  if i < pts.length then .done (pts.set i p) else .ub

/-- A loop that assigns the points `l` one after the other. `mk i pos` is the point with number `i` and the state of the
random source afterwards. (include/utils/Generator.h:64-75, 105-111, 165-175) -/
def fill (mk : Nat → Nat → Res (Option (Vec D K) × Nat)) : List Nat → Pts D K × Nat → Res (Pts D K × Nat)
  | [], s => .done s
  | i :: l, s => (mk i s.2).bind fun x => (put i x.1 s.1).bind fun pts => fill mk l (pts, x.2)

/-- The next `D` random numbers. (include/utils/Generator.h:66-68) -/
def draw (r : Nat → K) (pos : Nat) : Vec D K := fun d => r (pos + d)

/-- Rejection loop: repeats until the point is in the bounds.
(include/utils/Generator.h:105-111, 167-173; include/load_balancing/PatchBubbleGenerator.h:53-59) -/
def reject (b : Box D K) (f : Vec D K → Vec D K) (r : Nat → K) : Nat → Nat → Res (Option (Vec D K) × Nat)
  | 0, _ => .timeout
  | fuel + 1, pos =>
    let p := f (draw r pos)
    if b.containsPoint p then .done (some p, pos + D) else reject b f r fuel (pos + D)

/-! ### include/utils/Generator.h -/

/-- `auto dice = std::bind(distribution, gen)`: the random numbers come from a copy of the caller's source.
(include/utils/Generator.h:59, 92, 132, 195, 257) -/
def onCopy (g : Nat → Res (Pts D K × Nat)) (pos : Nat) : Res (Pts D K × Nat) := (g pos).bind fun s => .done (s.1, pos)

/-- `UniformPointGenerator`. (include/utils/Generator.h:53-78) -/
def uniform (b : Box D K) (r : Nat → K) (n : Nat) : Nat → Res (Pts D K × Nat) := onCopy fun pos =>
  fill (fun _ pos => .done (some fun d => b.low d + (b.high d - b.low d) * r (pos + d), pos + D)) (List.range' 1 n) (init n, pos)

/-- Midpoint and span of a box: `midpoint[d] += (high - low) / 2`, `span[d] -= low[d]`, and a point from normal distributed
numbers. (include/utils/Generator.h:94-100, 106-110) -/
def around (b : Box D K) (v : Vec D K) : Vec D K := fun d => b.low d + (b.high d - b.low d) / 2 + (b.high d - b.low d) * v d

/-- `NormalPointGenerator`. (include/utils/Generator.h:86-118) -/
def normal (fuel : Nat) (b : Box D K) (r : Nat → K) (n : Nat) : Nat → Res (Pts D K × Nat) := onCopy fun pos =>
  fill (fun _ pos => reject b (around b) r fuel pos) (List.range' 1 n) (init n, pos)

/-- The bubble with number `i`. (include/utils/Generator.h:134-150) -/
def bubbleBox (b : Box D K) (i : Nat) : Box D K where
  low := fun d => if i.testBit d then b.low d + (b.high d - b.low d) / 2 else b.low d
  high := fun d => if i.testBit d then b.high d else b.low d + (b.high d - b.low d) / 2

/-- The loop over the bubbles. (include/utils/Generator.h:153-178) -/
def bubbleLoop (fuel : Nat) (b : Box D K) (r : Nat → K) (ppB : Nat) : List Nat → Pts D K × Nat → Res (Pts D K × Nat)
  | [], s => .done s
  | k :: l, s =>
    (fill (fun _ pos => reject b (around (bubbleBox b k)) r fuel pos) (List.range' (k * ppB + 1) ppB) s).bind fun s' =>
      bubbleLoop fuel b r ppB l s'

/-- `BubblePointGenerator`. (include/utils/Generator.h:126-181) -/
def bubble (fuel : Nat) (b : Box D K) (r : Nat → K) (n : Nat) : Nat → Res (Pts D K × Nat) := onCopy fun pos =>
  bubbleLoop fuel b r (n / 2 ^ D) (List.range (2 ^ D)) (init n, pos)

/-- One point of the ellipsoid; no valid coordinates (not a number) if all random numbers are zero.
(include/utils/Generator.h:211-229) -/
def ellipsoidPoint (sqrt : K → K) (b : Box D K) (v : Vec D K) : Option (Vec D K) :=
  let r := sqrt (lenSq v)
  if r = 0 then none
  else some fun d => b.low d + (b.high d - b.low d) / 2 + 45 / 100 * (b.high d - b.low d) * (v d / r)

/-- `EllipsoidPointGenerator`. (include/utils/Generator.h:189-233) -/
def ellipsoid (sqrt : K → K) (b : Box D K) (r : Nat → K) (n : Nat) : Nat → Res (Pts D K × Nat) := onCopy fun pos =>
  fill (fun _ pos => .done (ellipsoidPoint sqrt b (draw r pos), pos + D)) (List.range' 1 n) (init n, pos)

/-- Corner of the box with the coordinate `d` replaced. (include/utils/Generator.h:259-275) -/
def corner (v : Vec D K) (k : Nat) (x : K) : Vec D K := fun d => if d.val = k then x else v d

/-- The loop of `SkewLinePointGenerator`. (include/utils/Generator.h:277-290) -/
def skewLoop (a x c y : Vec D K) (r : Nat → K) : List Nat → Pts D K × Nat → Res (Pts D K × Nat)
  | [], s => .done s
  | i :: l, s =>
    (put i (some fun d => a d + r s.2 * x d) s.1).bind fun pts =>
      (put (i + 1) (some fun d => c d + r s.2 * y d) pts).bind fun pts => skewLoop a x c y r l (pts, s.2 + 1)

/-- `SkewLinePointGenerator`: two lines `a + r x` and `c + r y`; skew is 1/10. Dimension 2 or more. The loop `for (i = 1; i < n; i += 2)` has `n / 2` rounds.
(include/utils/Generator.h:241-293) -/
def skewLine (h : 1 < D) (b : Box D K) (r : Nat → K) (n : Nat) : Nat → Res (Pts D K × Nat) := onCopy fun pos =>
  let a := corner b.low 1 (b.low ⟨1, h⟩ + 1 / 10 * (b.high ⟨1, h⟩ - b.low ⟨1, h⟩))
  let x := fun d => b.high d - a d
  let c := corner b.low 0 (b.high ⟨0, by omega⟩)
  let y := fun d => corner b.high 0 (b.low ⟨0, by omega⟩) d - c d
  skewLoop a x c y r (List.range' 1 (n / 2) 2) (init n, pos)

/-! ### Bubbles of the load balancing experiments -/

/-- Rounds to the nearest integer, ties to the even one. -/
def rne [FloorRing K] (q : K) : Int :=
  if q - ⌊q⌋ < 1 / 2 then ⌊q⌋ else if 1 / 2 < q - ⌊q⌋ then ⌊q⌋ + 1 else if Even ⌊q⌋ then ⌊q⌋ else ⌊q⌋ + 1

/-- Rounding to single precision (24 bits) without underflow and overflow. -/
def fl24 [FloorRing K] (x : K) : K :=
  let u := (2 : K) ^ (Int.log 2 |x| - 23)
  (rne (x / u) : K) * u

/-- `size_t centerIndex = i * ((float)mNumBubbles / n)`: `fl` rounds to single precision, the conversion to `size_t` rounds
towards zero. (include/load_balancing/UnboundBubbleGenerator.h:57, MaliciousBubbleGenerator.h:35) -/
def centerIndex [FloorRing K] (fl : K → K) (m n i : Nat) : Nat := ⌊fl (fl i * fl (fl m / fl n))⌋.toNat

/-- The points that are the uniform distributed centres of bubbles in a box, from `m * D` random numbers.
(include/load_balancing/UnboundBubbleGenerator.h:45-54, PatchBubbleGenerator.h:70-80) -/
def randomCenters (b : Box D K) (u : Nat → K) (m pos : Nat) : List (Vec D K) :=
  (List.range m).map fun k d => b.low d + (b.high d - b.low d) * u (pos + k * D + d)

/-- `UnboundBubbleGenerator` with bubbles of radius `rad`; `u` are the random numbers between 0 and 1 of the centres, `v` those
between `-rad` and `rad`. (include/load_balancing/UnboundBubbleGenerator.h:21-66) -/
def unbound [FloorRing K] (fl : K → K) (m : Nat) (rad : K) (b : Box D K) (u v : Nat → K) (n pos : Nat) :
    Res (Pts D K × Nat) :=
  let shrunk : Box D K := ⟨fun d => b.low d + rad, fun d => b.high d - rad⟩
  let cs := randomCenters shrunk u m pos
  fill (fun i pos => match cs[centerIndex fl m n i]? with
    | none => .ub
    | some c => .done (some (add c (draw v pos)), pos + D)) (List.range n) (init n, pos + m * D)

/-- `calculateBubbleRadiuses` without the final square root: smaller one of the squared distance to the nearest other centre
(the second smallest of all distances, `std::nth_element`) and to the boundary; `none`: less than two centres.
(include/load_balancing/MaliciousBubbleGenerator.h:81-105, PatchBubbleGenerator.h:82-108) -/
def sqRadius (b : Box D K) (cs : List (Vec D K)) (c : Vec D K) : Option K :=
  ((cs.map fun o => lenSq (Vecs.sub o c)).insertionSort (· ≤ ·))[1]?.map fun nn => min nn (lenSq (Box.vecToBoxBoundary c b))

/-- A normal distributed point of the bubble with number `c`; `rad` is the radius as a function of the squared one.
(include/load_balancing/MaliciousBubbleGenerator.h:36-45, PatchBubbleGenerator.h:49-59) -/
def bubblePoint (rad : K → K) (fuel : Nat) (b : Box D K) (cs : List (Vec D K)) (r : Nat → K) (c pos : Nat) :
    Res (Option (Vec D K) × Nat) :=
  match cs[c]? with
  | none => .ub
  | some x => match sqRadius b cs x with
    | none => .ub
    | some q => reject b (fun v => add (scale v (rad q)) x) r fuel pos

/-- `generateBubbleCenters` of `MaliciousBubbleGenerator`; `k` is `bubblesPerDim`, the root of the number of bubbles rounded
up. (include/load_balancing/MaliciousBubbleGenerator.h:50-79) -/
def gridCenters (b : Box D K) (k m : Nat) : List (Vec D K) :=
  (List.range m).map fun i d => b.low d + (b.high d - b.low d) / (k : K) * ((i / k ^ d.val % k : Nat) : K)

/-- `MaliciousBubbleGenerator`. (include/load_balancing/MaliciousBubbleGenerator.h:24-48) -/
def malicious [FloorRing K] (fl : K → K) (sqrt : K → K) (k m : Nat) (fuel : Nat) (b : Box D K) (r : Nat → K)
    (n pos : Nat) : Res (Pts D K × Nat) :=
  let cs := gridCenters b k m
  fill (fun i pos => bubblePoint (fun q => sqrt q / 4) fuel b cs r (centerIndex fl m n i) pos) (List.range n) (init n, pos)

/-- Conversion of a floating point number to `size_t`; `none`: undefined. (include/load_balancing/PatchBubbleGenerator.h:40-45) -/
def toSize [FloorRing K] (x : K) : Option Nat := if -1 < x ∧ x < 2 ^ 64 then some ⌊x⌋.toNat else none

/-- Number of points of the bubble `c` and the state of the random source; `w` are the normal distributed numbers around 1.
(include/load_balancing/PatchBubbleGenerator.h:40-45) -/
def patchCount [FloorRing K] (m : Nat) (w : Nat → K) (c rem pos : Nat) : Option (Nat × Nat) :=
  if m - c > 1 then (toSize (((rem / (m - c) : Nat) : K) * w pos)).map fun pp => (pp, pos + 1) else some (rem, pos)

/-- The loop of `PatchBubbleGenerator` over the bubbles; `rem` is `remainingPoints` and `idx` the next point. The 64-bit
subtraction wraps around. (include/load_balancing/PatchBubbleGenerator.h:38-62) -/
def patchLoop [FloorRing K] (m : Nat) (w : Nat → K) (mk : Nat → Nat → Res (Option (Vec D K) × Nat)) :
    List Nat → Nat → Nat → Pts D K × Nat → Res (Pts D K × Nat)
  | [], _, _, s => .done s
  | c :: l, rem, idx, s =>
    match patchCount m w c rem s.2 with
    | none => .ub
    | some (pp, pos) => (fill (fun _ pos => mk c pos) (List.range' idx pp) (s.1, pos)).bind fun s' =>
        patchLoop m w mk l ((rem + 2 ^ 64 - pp) % 2 ^ 64) (idx + pp) s'

/-- `PatchBubbleGenerator`; `u`, `w`, `r` are the random numbers of the centres, the number of points and the coordinates.
(include/load_balancing/PatchBubbleGenerator.h:24-66) -/
def patch [FloorRing K] (sqrt : K → K) (m : Nat) (fuel : Nat) (b : Box D K) (u w r : Nat → K) (n pos : Nat) :
    Res (Pts D K × Nat) :=
  let cs := randomCenters b u m pos
  patchLoop m w (bubblePoint (fun q => sqrt q / 2) fuel b cs r) (List.range m) n 1 (init n, pos + m * D)

/-- Results of `generate`: `_gen` on the initial container, then the spatial sort of the points from 1 on.
(include/utils/Generator.h:11-20, 36-39, src/lib/SpatialSort.cpp:81-88) -/
def Generate (g : Res (Pts D K × Nat)) (pts : Pts D K) : Prop :=
  ∃ s, g = .done s ∧ pts[0]? = s.1[0]? ∧ pts.tail.Perm s.1.tail

end Gen
end Verif
