import Verif.Model.Res

/-!
# Model of `/repo/include/utils/Misc.h` and `/repo/include/utils/StaticSort.h`
-/
namespace Verif
namespace Misc

/-- `isPow2`, Misc.h:10-13, on 64-bit words. -/
def isPow2 (x : BitVec 64) : Bool := x != 0#64 && (x &&& (x - 1#64)) == 0#64

/-- `isPowN`, Misc.h:15-18. Division by zero is undefined behaviour (`none`). -/
def isPowN (x n : BitVec 64) : Option Bool :=
  if x = 0#64 then some false
  else if n = 0#64 then none
  else some (x % n == 0#64)

/-- Loop of `nextPow2`, Misc.h:24-26: `for (T s = 1; s < 64; s <<= 1) v |= v >> s`, the six values
of `s` written out. -/
def smear (v : BitVec 64) : BitVec 64 :=
  let v := v ||| (v >>> 1)
  let v := v ||| (v >>> 2)
  let v := v ||| (v >>> 4)
  let v := v ||| (v >>> 8)
  let v := v ||| (v >>> 16)
  v ||| (v >>> 32)

/-- `nextPow2`, Misc.h:20-29. -/
def nextPow2W (x : BitVec 64) : BitVec 64 := smear (x - 1#64) + 1#64

/-- Loop of `log2`, Misc.h:35: `while (x >>= 1) ++y` (returns `y`). -/
def log2Loop (x : Nat) : Nat → Nat → Nat
  | 0, y => y
  | fuel + 1, y => if x / 2 = 0 then y else log2Loop (x / 2) fuel (y + 1)

/-- `log2`, Misc.h:31-38. The value of a 64-bit word is used as a natural number; the loop ends
after at most 64 rounds. -/
def log2W (x : BitVec 64) : Nat := log2Loop x.toNat 64 0

/-- Loop of `logN`, Misc.h:44: `while (x >>= log2(_n)) ++y`. -/
def logNLoop (n : BitVec 64) : Nat → BitVec 64 → Nat → Res Nat
  | 0, _, _ => .timeout
  | fuel + 1, x, y =>
    let x' := x >>> (log2W n)
    if x' = 0#64 then .done y else logNLoop n fuel x' (y + 1)

/-- `logN`, Misc.h:40-47. -/
def logN (fuel : Nat) (x n : BitVec 64) : Res Nat := logNLoop n fuel x 0

/-- `popcount`, Misc.h:49-61, for 64-bit words (`(T)~(T)0/3` etc. evaluated). -/
def popcount (x : BitVec 64) : BitVec 64 :=
  let v := x
  let v := v - ((v >>> 1) &&& 0x5555555555555555#64)
  let v := (v &&& 0x3333333333333333#64) + ((v >>> 2) &&& 0x3333333333333333#64)
  let v := (v + (v >>> 4)) &&& 0x0F0F0F0F0F0F0F0F#64
  (v * 0x0101010101010101#64) >>> 56

/-- `std::getline(ss, field, delimiter)` as used in Misc.h:79: returns the field, the unread rest and
the eof flag (set when the end of the stream was reached before a delimiter). -/
def getline {α : Type} [DecidableEq α] (d : α) : List α → List α × List α × Bool
  | [] => ([], [], true)
  | c :: cs =>
    if c = d then ([], cs, false)
    else ((c :: (getline d cs).1), (getline d cs).2.1, (getline d cs).2.2)

theorem getline_rest_lt {α : Type} [DecidableEq α] (d : α) : ∀ s : List α,
    (getline d s).2.2 = false → (getline d s).2.1.length < s.length
  | [], h => by simp [getline] at h
  | c :: cs, h => by
    unfold getline at h ⊢
    split
    · simp
    · rename_i hc
      rw [if_neg hc] at h
      have := getline_rest_lt d cs h
      simp; omega

/-- Loop of `split`, Misc.h:75-82 (`while (!ss.eof())`), with `empties_ok` (`keepEmpty = true`) or
`no_empties`. -/
def splitLoop {α : Type} [DecidableEq α] (d : α) (keepEmpty : Bool) (s : List α) : List (List α) :=
  let field := (getline d s).1
  let here := if !keepEmpty && field.isEmpty then [] else [field]
  if h : (getline d s).2.2 = true then here
  else here ++ splitLoop d keepEmpty (getline d s).2.1
termination_by s.length
decreasing_by exact getline_rest_lt d s (by simpa using h)

/-- Inner loop of `static_insertion_sort_with_data`, StaticSort.h:29-32, from position `hole`;
returns the final hole position and the arrays. -/
def sortInner {β : Type} (value : Nat) : Nat → List Nat → List β → Option (Nat × List Nat × List β)
  | 0, arr, dat => some (0, arr, dat)
  | h + 1, arr, dat =>
    match arr[h]?, dat[h]? with
    | some x, some y =>
      if value < x then sortInner value h (arr.set (h + 1) x) (dat.set (h + 1) y)
      else some (h + 1, arr, dat)
    | _, _ => none

/-- `short hole = i` for `unsigned short i`, StaticSort.h:27: values from 32768 on become negative. -/
def toShort (i : Nat) : Int := if i < 32768 then (i : Int) else (i : Int) - 65536

/-- One round of the outer loop, StaticSort.h:24-36. `none`: access outside the array. -/
def sortRound {β : Type} (i : Nat) (arr : List Nat) (dat : List β) : Option (List Nat × List β) :=
  match arr[i]?, dat[i]? with
  | some value, some data =>
    match toShort i with
    | .negSucc _ => none   -- loop not entered, then `arr[hole]` with a negative index
    | .ofNat hole =>
      match sortInner value hole arr dat with
      | some (h, arr, dat) => some (arr.set h value, dat.set h data)
      | none => none
  | _, _ => none

/-- Outer loop, StaticSort.h:24: rounds `i, i+1, ..., i+n-1`. -/
def sortOuter {β : Type} : Nat → Nat → List Nat → List β → Option (List Nat × List β)
  | 0, _, arr, dat => some (arr, dat)
  | n + 1, i, arr, dat =>
    match sortRound i arr dat with
    | some (arr, dat) => sortOuter n (i + 1) arr dat
    | none => none

/-- `static_insertion_sort_with_data`, StaticSort.h:20-38 (`N` is the common length). -/
def sortWithData {β : Type} (arr : List Nat) (dat : List β) : Option (List Nat × List β) :=
  sortOuter (arr.length - 1) 1 arr dat

/-- `static_insertion_sort`, StaticSort.h:6-18: the same loops without the data array; modelled as
sorting with empty data. -/
def sortKeys (arr : List Nat) : Option (List Nat) :=
  (sortWithData arr (List.replicate arr.length ())).map (·.1)

end Misc
end Verif
