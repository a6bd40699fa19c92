import Verif.Model.Expansion

/-!
# The other functions for expansions

`/repo/src/utils/Predicates.cpp` lines 481-768 and 990-1023: adding a number to an expansion, adding two expansions, and multiplying
an expansion by a number, in the variants that the predicates do not call.

Expansions are lists. Where the code lets the result take the place of the argument, every component is read before its place is
written, so lists are enough.
-/
namespace Verif
namespace FP

/-- The loop of `grow_expansion`: the components written and the last `Q`. (src/utils/Predicates.cpp:492-496) -/
def growLoop (p : Nat) : List ℚ → ℚ → List ℚ × ℚ
  | [], Q => ([], Q)
  | e :: es, Q =>
    let r := twoSum p Q e
    let t := growLoop p es r.1
    (r.2 :: t.1, t.2)

/-- `grow_expansion`. (src/utils/Predicates.cpp:482-500) -/
def grow (p : Nat) (e : List ℚ) (b : ℚ) : List ℚ :=
  let t := growLoop p e b
  t.1 ++ [t.2]

/-- The loop of `grow_expansion_zeroelim`. (src/utils/Predicates.cpp:526-533) -/
def growLoopZ (p : Nat) : List ℚ → ℚ → List ℚ × ℚ
  | [], Q => ([], Q)
  | e :: es, Q =>
    let r := twoSum p Q e
    let t := growLoopZ p es r.1
    (emit r.2 t.1, t.2)

/-- `grow_expansion_zeroelim`. (src/utils/Predicates.cpp:516-540) -/
def growZ (p : Nat) (e : List ℚ) (b : ℚ) : List ℚ := finish (growLoopZ p e b)

/-- The second loop of `expansion_sum`: the round for `f[findex]` starts at the component `findex` of the result, the ones before it stay.
The result has at least one component. (src/utils/Predicates.cpp:571-579) -/
def sumLoop (p : Nat) : List ℚ → List ℚ → List ℚ
  | [], h => h
  | _ :: _, [] => []
  | f :: fs, h0 :: hs => h0 :: sumLoop p fs (grow p hs f)

/-- `expansion_sum`. The second argument has at least one component. (src/utils/Predicates.cpp:554-581) -/
def expansionSum (p : Nat) (e f : List ℚ) : List ℚ :=
  match f with
  | [] => []
  | f0 :: fs => sumLoop p fs (grow p e f0)

/-- `expansion_sum_zeroelim1`: the zeros are removed at the end; if nothing else is left the first component stays.
(src/utils/Predicates.cpp:597-636) -/
def expansionSumZ1 (p : Nat) (e f : List ℚ) : List ℚ :=
  let h := expansionSum p e f
  let l := h.filter (· ≠ 0)
  if l = [] then h.take 1 else l

/-- One round of `expansion_sum_zeroelim2`: zeros are not written, but the last `Q` always is. (src/utils/Predicates.cpp:664-676,
678-690) -/
def growKeep (p : Nat) (h : List ℚ) (f : ℚ) : List ℚ :=
  let t := growLoopZ p h f
  t.1 ++ [t.2]

/-- `expansion_sum_zeroelim2`. Every round starts at the first component. (src/utils/Predicates.cpp:652-692) -/
def expansionSumZ2 (p : Nat) (e f : List ℚ) : List ℚ :=
  match f with
  | [] => []
  | f0 :: fs => fs.foldl (growKeep p) (growKeep p e f0)

/-- The loops of `fast_expansion_sum`. (src/utils/Predicates.cpp:739-762) -/
def fastLoop (p : Nat) : List ℚ → List ℚ → ℚ → List ℚ × ℚ
  | [], [], Q => ([], Q)
  | e :: es, [], Q =>
    let r := twoSum p Q e
    let t := fastLoop p es [] r.1
    (r.2 :: t.1, t.2)
  | [], f :: fs, Q =>
    let r := twoSum p Q f
    let t := fastLoop p [] fs r.1
    (r.2 :: t.1, t.2)
  | e :: es, f :: fs, Q =>
    if pickE e f then
      let r := twoSum p Q e
      let t := fastLoop p es (f :: fs) r.1
      (r.2 :: t.1, t.2)
    else
      let r := twoSum p Q f
      let t := fastLoop p (e :: es) fs r.1
      (r.2 :: t.1, t.2)
  termination_by es fs => es.length + fs.length

/-- `fast_expansion_sum` after its first choice. (src/utils/Predicates.cpp:728-763) -/
def fastRest (p : Nat) (es fs : List ℚ) (Q : ℚ) : List ℚ × ℚ :=
  match es, fs with
  | e :: es, f :: fs =>
    if pickE e f then
      let r := fastTwoSum p e Q
      let t := fastLoop p es (f :: fs) r.1
      (r.2 :: t.1, t.2)
    else
      let r := fastTwoSum p f Q
      let t := fastLoop p (e :: es) fs r.1
      (r.2 :: t.1, t.2)
  | es, fs => fastLoop p es fs Q

/-- `fast_expansion_sum`. Both arguments have at least one component. (src/utils/Predicates.cpp:707-765) -/
def fastSum (p : Nat) (e f : List ℚ) : List ℚ :=
  match e, f with
  | e0 :: es, f0 :: fs =>
    let t := if pickE e0 f0 then fastRest p es (f0 :: fs) e0 else fastRest p (e0 :: es) fs f0
    t.1 ++ [t.2]
  | _, _ => []

/-- The loop of `scale_expansion`. (src/utils/Predicates.cpp:1009-1016) -/
def scaleAllLoop (p : Nat) (splitter b : ℚ) : List ℚ → ℚ → List ℚ × ℚ
  | [], Q => ([], Q)
  | e :: es, Q =>
    let pr := twoProduct p splitter e b
    let s := twoSum p Q pr.2
    let q := twoSum p pr.1 s.1
    let t := scaleAllLoop p splitter b es q.1
    (s.2 :: q.2 :: t.1, t.2)

/-- `scale_expansion`. The argument has at least one component. (src/utils/Predicates.cpp:990-1019) -/
def scaleAll (p : Nat) (splitter : ℚ) (e : List ℚ) (b : ℚ) : List ℚ :=
  match e with
  | e0 :: es =>
    let pr := twoProduct p splitter e0 b
    let t := scaleAllLoop p splitter b es pr.1
    pr.2 :: (t.1 ++ [t.2])
  | [] => []

end FP
end Verif
