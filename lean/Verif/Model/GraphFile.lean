import Verif.Model.Report
import Verif.Model.Sampler

/-!
# Model of writing the graph of a sample to a file

`Graph::toFile`, `/repo/include/load_balancing/sample_partitioner/Sampler.h` 63-77. The text is a list of characters; opening the file and
errors of the stream are not modelled. `none`: access out of bounds, or overflow of `adjacency[e] + 1`.
-/
namespace Verif
namespace Samp

/-- The inner loop from entry `e` on with `n` entries left; `lo` is `nodeRecords[n]`.
(include/load_balancing/sample_partitioner/Sampler.h:70-74) -/
def rowText (g : Graph) (lo : Nat) : Nat → Nat → Option (List Char)
  | 0, _ => some []
  | n + 1, e => do
    let t ← g.adj[e]?
    let w ← g.wts[e]?
    if t + 1 < 2 ^ 31 then
      let r ← rowText g lo n (e + 1)
      some ((if lo < e then [' '] else []) ++ Report.nat (t + 1) ++ ' ' :: (Report.int w ++ r))
    else none

/-- The outer loop over the remaining records. (include/load_balancing/sample_partitioner/Sampler.h:69-76) -/
def rowsText (g : Graph) : List Nat → Option (List Char)
  | lo :: hi :: rs => do
    let r ← rowText g lo (hi - lo) lo
    let l ← rowsText g (hi :: rs)
    some (r ++ '\n' :: l)
  | _ => some []

/-- `Graph::toFile`: the text of the file. `size()` is computed with unsigned numbers of 64 bits.
(include/load_balancing/sample_partitioner/Sampler.h:55-57, 63-77) -/
def toFile (g : Graph) : Option (List Char) := do
  let l ← rowsText g g.recs
  some (Report.nat ((g.recs.length + (2 ^ 64 - 1)) % 2 ^ 64) ++ ' ' :: (Report.nat (g.adj.length / 2) ++ ' ' :: '1' :: '\n' :: l))

end Samp
end Verif
