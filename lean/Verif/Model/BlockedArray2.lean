import Verif.Model.Res
import Mathlib.Data.List.Perm.Basic

/-!
# Model of the blocked array

`/repo/include/datastructures/BlockedArray2.hxx`, and the filtered iteration of `dSimplices`
(`/repo/include/Geometry.h` lines 904-952). Modelled with `NDEBUG` set (no range check in
`Block::at`). Ids and positions are unbounded natural numbers; the number of blocks fits in `uint`.
-/
namespace Verif
namespace BA2

/-- `_detail::Block`, BlockedArray2.hxx:295-402: ids `min ≤ i < max`, the element of id `i` is
`data[i - min]`. -/
structure Block (α : Type) where
  min : Nat
  max : Nat
  data : List α
deriving DecidableEq

/-- Constructor, 302-307 (all elements value-initialised). -/
def Block.new {α : Type} (dflt : α) (min max : Nat) : Block α :=
  { min := min, max := max, data := List.replicate (max - min) dflt }

/-- `Block::contains`, 345-347, and `_testBlock`, 548-550. -/
def Block.contains {α : Type} (b : Block α) (i : Nat) : Bool := decide (b.min ≤ i) && decide (i < b.max)

/-- Outcome of an access: a value, the exception `std::out_of_range`, or undefined behaviour. (include/datastructures/BlockedArray2.hxx:323-343, 570-576) -/
inductive Acc (β : Type) where
  | val (x : β)
  | thrown
  | ub
deriving DecidableEq

variable {α : Type}

/-- `Block::at` (323-343) with `NDEBUG`: `m_data[idx - m_min]`, undefined outside of the block. -/
def Block.get (b : Block α) (i : Nat) : Option α := if b.min ≤ i then b.data[i - b.min]? else none

/-- Binary search loop of `_findBlock`, 556-569; `none` would be an access out of bounds. -/
def findLoop (bs : List (Block α)) (idx : Nat) (start count : Nat) : Option Nat :=
  if h : count > 0 then
    let step := count / 2
    let it := start + step
    match bs[it]? with
    | none => none
    | some b =>
      if b.contains idx then some it
      else if b.min < idx then findLoop bs idx (it + 1) (count - (step + 1))
      else findLoop bs idx start step
  else some start
termination_by count
decreasing_by all_goals omega

/-- `_findBlock(idx, doThrow)`, 552-577. -/
def findBlock (bs : List (Block α)) (idx : Nat) (doThrow : Bool) : Acc Nat :=
  match findLoop bs idx 0 bs.length with
  | none => .ub
  | some s => if (s == bs.length) && doThrow then .thrown else .val s

/-- The block `at(idx, hint)` works on, which is also the new value of `hint`; 461-475. -/
def locate (bs : List (Block α)) (idx hint : Nat) : Acc Nat :=
  match bs[hint]? with
  | none => .ub
  | some b => if b.contains idx then .val hint else findBlock bs idx true

/-- `at(idx, hint)` read, 461-467. -/
def read (bs : List (Block α)) (idx hint : Nat) : Acc α :=
  match locate bs idx hint with
  | .thrown => .thrown
  | .ub => .ub
  | .val h => match (bs[h]?).bind fun b => b.get idx with
    | some v => .val v
    | none => .ub

/-- Assignment to `at(idx, hint)`, 469-475. -/
def write (bs : List (Block α)) (idx hint : Nat) (v : α) : Acc (List (Block α)) :=
  match locate bs idx hint with
  | .thrown => .thrown
  | .ub => .ub
  | .val h => match bs[h]? with
    | none => .ub
    | some b => match b.get idx with
      | none => .ub
      | some _ => .val (bs.set h { b with data := b.data.set (idx - b.min) v })

/-- `contains(idx, hint)`, 481-492. -/
def contains (bs : List (Block α)) (idx hint : Nat) : Acc Bool :=
  match bs[hint]? with
  | none => .ub
  | some b =>
    if b.contains idx then .val true
    else match findBlock bs idx false with
      | .val s =>
        if s ≠ bs.length then
          match bs[s]? with
          | none => .ub
          | some c => .val (c.contains idx)
        else .val false
      | .thrown => .thrown
      | .ub => .ub

/-- Possible results of `std::sort` with `block_cmp` (579-581): any permutation that is ascending in
`min`; the order of blocks with equal `min` is unspecified. -/
def SortOf (l l' : List (Block α)) : Prop := l'.Perm l ∧ l'.Pairwise fun a b => a.min ≤ b.min

/-- `exact_size`, 502-509. -/
def exactSize (bs : List (Block α)) : Nat := (bs.map fun b => b.max - b.min).sum

/-! ### Iterators -/

/-- `m_block`, `m_idx` of `block_iterator` / `filtered_block_iterator`. (include/datastructures/BlockedArray2.hxx:134-137, 289-292) -/
structure Pos where
  blk : Nat
  idx : Nat
deriving DecidableEq, Repr

/-- `operator*`, 91, 220. -/
def deref (bs : List (Block α)) (p : Pos) : Option α := (bs[p.blk]?).bind fun b => b.get p.idx

/-- `block_iterator::_advance` (118-124) and `filtered_block_iterator::_incIdx` (261-267). -/
def incIdx (bs : List (Block α)) (p : Pos) : Option Pos :=
  match bs[p.blk]? with
  | none => none
  | some b =>
    if b.max = p.idx + 1 ∧ p.blk < bs.length - 1 then
      match bs[p.blk + 1]? with
      | none => none
      | some b' => some { blk := p.blk + 1, idx := b'.min }
    else some { p with idx := p.idx + 1 }

/-- `block_iterator::_dec` (126-132) and `filtered_block_iterator::_decIdx` (281-287). An `m_idx` of
0 would wrap around (`none`; not reachable from legal positions). -/
def decIdx (bs : List (Block α)) (p : Pos) : Option Pos :=
  match bs[p.blk]? with
  | none => none
  | some b =>
    if b.min = p.idx ∧ p.blk > 0 then
      match bs[p.blk - 1]? with
      | none => none
      | some b' => if b'.max = 0 then none else some { blk := p.blk - 1, idx := b'.max - 1 }
    else if p.idx = 0 then none else some { p with idx := p.idx - 1 }

/-- `begin()` of `BlockedArray2` (526-528) before searching for a valid element. -/
def beginPos (bs : List (Block α)) : Option Pos := bs.head?.map fun b => { blk := 0, idx := b.min }

/-- `end()`, 530-532. -/
def endPos (bs : List (Block α)) : Option Pos :=
  bs.getLast?.map fun b => { blk := bs.length - 1, idx := b.max }

/-- Lift an optional result (`none` = undefined) to `Res`. -/
def ofOpt {β : Type} : Option β → Res β
  | none => .ub
  | some x => .done x

/-- Loop `for (it = p; it != e; ++it)` with `block_iterator`: visited ids and elements. (include/datastructures/BlockedArray2.hxx:69-73, 118-124) -/
def forAll (bs : List (Block α)) : Nat → Pos → Pos → Res (List (Nat × α))
  | 0, _, _ => .timeout
  | fuel + 1, p, e =>
    if p = e then .done []
    else (ofOpt (deref bs p)).bind fun v => (ofOpt (incIdx bs p)).bind fun q =>
      (forAll bs fuel q e).bind fun vs => .done ((p.idx, v) :: vs)

/-- Iteration over a `BlockedArray2`. (include/datastructures/BlockedArray2.hxx:526-540) -/
def iterAll (bs : List (Block α)) (fuel : Nat) : Res (List (Nat × α)) :=
  (ofOpt (beginPos bs)).bind fun b => (ofOpt (endPos bs)).bind fun e => forAll bs fuel b e

/-- Loop of `filtered_block_iterator::_advance`, 254-258; `top` is `m_blocks.back()->max()`. -/
def skip (bs : List (Block α)) (valid : α → Bool) (top : Nat) : Nat → Pos → Res Pos
  | 0, _ => .timeout
  | fuel + 1, p =>
    if p.idx < top then
      (ofOpt (deref bs p)).bind fun v =>
        if valid v then .done p
        else (ofOpt (incIdx bs p)).bind fun q => skip bs valid top fuel q
    else .done p

/-- `m_blocks.back()->max()`. (include/datastructures/BlockedArray2.hxx:254) -/
def top (bs : List (Block α)) : Option Nat := bs.getLast?.map fun b => b.max

/-- `_advance(true)`. (include/datastructures/BlockedArray2.hxx:249-259) -/
def advT (bs : List (Block α)) (valid : α → Bool) (fuel : Nat) (p : Pos) : Res Pos :=
  (ofOpt (top bs)).bind fun t => skip bs valid t fuel p

/-- `_advance(false)`, i.e. `operator++`. (include/datastructures/BlockedArray2.hxx:158-161, 249-259) -/
def next (bs : List (Block α)) (valid : α → Bool) (fuel : Nat) (p : Pos) : Res Pos :=
  (ofOpt (incIdx bs p)).bind fun q => advT bs valid fuel q

/-- Loop with `filtered_block_iterator` from `p` to `e`. (include/datastructures/BlockedArray2.hxx:198-202, 249-259) -/
def forValid (bs : List (Block α)) (valid : α → Bool) : Nat → Pos → Pos → Res (List (Nat × α))
  | 0, _, _ => .timeout
  | fuel + 1, p, e =>
    if p = e then .done []
    else (ofOpt (deref bs p)).bind fun v => (next bs valid fuel p).bind fun q =>
      (forValid bs valid fuel q e).bind fun vs => .done ((p.idx, v) :: vs)

/-- `dSimplices::begin()`, Geometry.h:915-917. -/
def beginValid (bs : List (Block α)) (valid : α → Bool) (fuel : Nat) : Res Pos :=
  (ofOpt (beginPos bs)).bind fun b => advT bs valid fuel b

/-- Iteration over `dSimplices` (`valid` is `_valid`, Geometry.h:950-952). -/
def iterValid (bs : List (Block α)) (valid : α → Bool) (fuel : Nat) : Res (List (Nat × α)) :=
  (beginValid bs valid fuel).bind fun b => (ofOpt (endPos bs)).bind fun e =>
    forValid bs valid fuel b e

/-! ### Splitting of ranges for parallel loops -/

/-- Loop of `filtered_block_iterator::_dec`, 274-278; `bot` is `m_blocks.front()->min()`. -/
def skipBack (bs : List (Block α)) (valid : α → Bool) (bot : Nat) : Nat → Pos → Res Pos
  | 0, _ => .timeout
  | fuel + 1, p =>
    if p.idx > bot then
      (ofOpt (deref bs p)).bind fun v =>
        if valid v then .done p
        else (ofOpt (decIdx bs p)).bind fun q => skipBack bs valid bot fuel q
    else .done p

/-- `operator--`, `_dec(false)`, 269-279. -/
def prev (bs : List (Block α)) (valid : α → Bool) (fuel : Nat) (p : Pos) : Res Pos :=
  (ofOpt (decIdx bs p)).bind fun q =>
    (ofOpt (beginPos bs)).bind fun b => skipBack bs valid b.idx fuel q

/-- `operator<`, 204-206. -/
def Pos.lt (p q : Pos) : Bool := decide (p.blk < q.blk) || (decide (p.blk = q.blk) && decide (p.idx < q.idx))

/-- `_setIdx(idx, true)`, 242-247. An exception of `_findBlock` counts as failure (`ub`). -/
def setIdx (bs : List (Block α)) (valid : α → Bool) (fuel : Nat) (idx : Nat) : Res Pos :=
  match findBlock bs idx true with
  | .val s => (ofOpt bs[s]?).bind fun b => advT bs valid fuel { blk := s, idx := max idx b.min }
  | _ => .ub

/-- `half(begin, end)`, 224-238. -/
def half (bs : List (Block α)) (valid : α → Bool) (fuel : Nat) (b e : Pos) : Res Pos :=
  (setIdx bs valid fuel (b.idx + (e.idx - b.idx) / 2)).bind fun m =>
    if m = e then (prev bs valid fuel m).bind fun m' => if m'.lt b then .done b else .done m'
    else .done m

/-- `range_type`, LP_Set.hxx:184-190, over filtered block iterators. -/
structure Range where
  b : Pos
  e : Pos
  mid : Pos
  grain : Nat

/-- `set_midpoint`, LP_Set.hxx:238-244. -/
def setMidpoint (bs : List (Block α)) (valid : α → Bool) (fuel : Nat) (b e : Pos) (grain : Nat) :
    Res Range :=
  if b = e then .done { b := b, e := e, mid := e, grain := grain }
  else (half bs valid fuel b e).bind fun m => .done { b := b, e := e, mid := m, grain := grain }

/-- `range_type(container, grainsize)`, LP_Set.hxx:217-224. -/
def Range.init (bs : List (Block α)) (valid : α → Bool) (fuel : Nat) (grain : Nat) : Res Range :=
  (beginValid bs valid fuel).bind fun b => (ofOpt (endPos bs)).bind fun e =>
    setMidpoint bs valid fuel b e grain

/-- `is_divisible`, LP_Set.hxx:198-200. -/
def Range.isDivisible (r : Range) : Bool :=
  r.b.lt r.mid && r.mid.lt r.e && decide (r.grain ≤ r.e.idx - r.b.idx)

/-- Splitting constructor, LP_Set.hxx:203-214: left part. -/
def Range.splitNew (bs : List (Block α)) (valid : α → Bool) (fuel : Nat) (r : Range) : Res Range :=
  setMidpoint bs valid fuel r.b r.mid r.grain

/-- Splitting constructor: right part. (include/datastructures/LP_Set.hxx:184-245) -/
def Range.splitOld (bs : List (Block α)) (valid : α → Bool) (fuel : Nat) (r : Range) : Res Range :=
  setMidpoint bs valid fuel r.mid r.e r.grain

/-- The sets of ranges a TBB scheduler may end up with (compare `HashIter.Splits`). (include/datastructures/LP_Set.hxx:184-245) -/
inductive Splits (bs : List (Block α)) (valid : α → Bool) : Range → List Range → Prop where
  | leaf (r : Range) : Splits bs valid r [r]
  | node (r r1 r2 : Range) (xs ys : List Range) : r.isDivisible = true →
      Returns (fun n => r.splitNew bs valid n) r1 → Returns (fun n => r.splitOld bs valid n) r2 →
      Splits bs valid r1 xs → Splits bs valid r2 ys → Splits bs valid r (xs ++ ys)

/-! ### Serialisation -/

/-- One block in an archive: `min`, `max` and the elements, 374-381. -/
abbrev SavedBlock (α : Type) := Nat × Nat × List α

/-- `save`, 586-595: the number of blocks and the blocks. -/
def save (bs : List (Block α)) : Nat × List (SavedBlock α) :=
  (bs.length, bs.map fun b => (b.min, b.max, b.data))

/-- `load` (597-607) into an array that has `have_` blocks: `m_blocks.resize(n)` creates null
pointers beyond the existing blocks, and `*m_blocks[i]` dereferences them (undefined). -/
def load (have_ : Nat) (a : Nat × List (SavedBlock α)) : Option (List (Block α)) :=
  if a.1 ≤ have_ ∧ a.2.length = a.1 then
    some (a.2.map fun s => { min := s.1, max := s.2.1, data := s.2.2 })
  else none

end BA2

/-! ### `BlockedArray` -/
namespace BA1

/-- `BlockedArray<T, BS>` (`/repo/include/datastructures/BlockedArray.hxx` lines 9-59): the number of
blocks; blocks have `bs` elements each. Elements are abstracted to their position. -/
structure Arr where
  nBlocks : Nat

/-- `reserve`, BlockedArray.hxx:27-33; `bs` is positive (a block size of 0 would loop forever). -/
def reserve (bs : Nat) (a : Arr) (capacity : Nat) : Arr :=
  { nBlocks := if bs = 0 then a.nBlocks else max a.nBlocks ((capacity + bs - 1) / bs) }

/-- The memory cell `m_blocks[idx / BS][idx % BS]`. (include/datastructures/BlockedArray.hxx:35-53) -/
def cell (bs : Nat) (a : Arr) (idx : Nat) : Option (Nat × Nat) :=
  if idx / bs < a.nBlocks then some (idx / bs, idx % bs) else none

/-- `at`, BlockedArray.hxx:43-53 (same in `Concurrent_BlockedArray`, 95-105). -/
def at_ (bs : Nat) (a : Arr) (idx : Nat) : BA2.Acc (Nat × Nat) :=
  if idx > a.nBlocks * bs then .thrown
  else match cell bs a idx with
    | some c => .val c
    | none => .ub

end BA1
end Verif
