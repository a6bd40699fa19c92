import Verif.Model.Sample
import Mathlib.Data.Nat.Log
import Mathlib.Data.Nat.Sqrt

/-!
# Model of the drawing of the sample

`/repo/include/load_balancing/sample_partitioner/Sampler.h`: `operator()` (130-149) and `generateSample` (160-175),
`CommandLineInterface.h` 94-111: the sample size. `std::sample` is modelled by what the C++ standard says about it. The
triangulation and the graph of the sample are in `Verif.Model.Sampler`; the partition of the graph by KaHIP is a parameter.
-/
namespace Verif
namespace Samp

/-- The results of `std::sample` with a source that can be iterated more than once: the minimum of `k` and the size of
the source many elements, in the same order. All of them have the same probability.
(include/load_balancing/sample_partitioner/Sampler.h:163-164) -/
def StdSample (k : Nat) (l r : List Nat) : Prop := r.Sublist l ∧ r.length = min k l.length

/-- `generateSample`: the infinite points are removed after the drawing.
(include/load_balancing/sample_partitioner/Sampler.h:160-175) -/
def GenerateSample (D k : Nat) (ids : List Nat) (s : Finset Nat) : Prop :=
  ∃ r, StdSample k ids r ∧ s = (r.filter (Part.isFinite D)).toFinset

/-- `std::sqrt(n)` as `size_t`, which is the default; without the rounding of `std::sqrt`. (include/load_balancing/CommandLineInterface.h:96, 100) -/
def sqrtSize (n : Nat) : Nat := Nat.sqrt n

/-- `std::log2(n)` as `size_t`, for `n > 0`, without the rounding of `std::log2`. (include/load_balancing/CommandLineInterface.h:102) -/
def logSize (n : Nat) : Nat := Nat.log 2 n

variable {D : Nat} {K : Type}

/-- The results of `operator()`: the sample points, in the order `it` of the iteration over the sample, with the parts
that `partitionGraph` assigns to them. `size` is the function for the sample size and `finite` the number of points.
(include/load_balancing/sample_partitioner/Sampler.h:130-149, 186-195) -/
def Draws (D : Nat) (size : Nat → Nat) (finite : Nat) (it : Finset Nat → List Nat) (part : List Nat → List Nat)
    (pts : Nat → Vec D K) (ids : List Nat) (sample : List (Nat × Vec D K)) : Prop :=
  ∃ s, GenerateSample D (size finite) ids s ∧ sample = (part (it s)).zip ((it s).map pts)

end Samp
end Verif
