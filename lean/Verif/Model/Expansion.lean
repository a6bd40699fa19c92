import Verif.Model.FP

/-!
# Expansions

`/repo/src/utils/Predicates.cpp`: the macros and functions for expansions. An expansion is a list of floating point numbers whose sum is
the number it represents; the arrays of the code with their lengths are lists.
-/
namespace Verif
namespace FP

/-- `Two_One_Diff`: `[x0, x1, x2]`. (src/utils/Predicates.cpp:261-263) -/
def twoOneDiff (p : Nat) (a1 a0 b : ℚ) : ℚ × ℚ × ℚ :=
  let r := twoDiff p a0 b
  let t := twoSum p a1 r.1
  (t.1, t.2, r.2)

/-- `Two_Two_Diff`: `[x0, x1, x2, x3]`. (src/utils/Predicates.cpp:269-271) -/
def twoTwoDiff (p : Nat) (a1 a0 b1 b0 : ℚ) : List ℚ :=
  let r := twoOneDiff p a1 a0 b0
  let t := twoOneDiff p r.1 r.2.1 b1
  [r.2.2, t.2.2, t.2.1, t.1]

/-- Choice of the next component: true for the one of `e`. (src/utils/Predicates.cpp:793, 802, 816) -/
def pickE (enow fnow : ℚ) : Bool := decide (fnow > enow) == decide (fnow > -enow)

/-- Append a component unless it is zero. (src/utils/Predicates.cpp:810-812) -/
def emit (hh : ℚ) (h : List ℚ) : List ℚ := if hh ≠ 0 then hh :: h else h

/-- The loops of `fast_expansion_sum_zeroelim`: components appended to `h`, and the last `Q`.
(src/utils/Predicates.cpp:814-842) -/
def fesLoop (p : Nat) : List ℚ → List ℚ → ℚ → List ℚ × ℚ
  | [], [], Q => ([], Q)
  | e :: es, [], Q =>
    let r := twoSum p Q e
    let t := fesLoop p es [] r.1
    (emit r.2 t.1, t.2)
  | [], f :: fs, Q =>
    let r := twoSum p Q f
    let t := fesLoop p [] fs r.1
    (emit r.2 t.1, t.2)
  | e :: es, f :: fs, Q =>
    if pickE e f then
      let r := twoSum p Q e
      let t := fesLoop p es (f :: fs) r.1
      (emit r.2 t.1, t.2)
    else
      let r := twoSum p Q f
      let t := fesLoop p (e :: es) fs r.1
      (emit r.2 t.1, t.2)
termination_by es fs => es.length + fs.length

/-- The part after the first component. (src/utils/Predicates.cpp:800-842) -/
def fesRest (p : Nat) (es fs : List ℚ) (Q : ℚ) : List ℚ × ℚ :=
  match es, fs with
  | e :: es, f :: fs =>
    if pickE e f then
      let r := fastTwoSum p e Q
      let t := fesLoop p es (f :: fs) r.1
      (emit r.2 t.1, t.2)
    else
      let r := fastTwoSum p f Q
      let t := fesLoop p (e :: es) fs r.1
      (emit r.2 t.1, t.2)
  | es, fs => fesLoop p es fs Q

/-- The last component. (src/utils/Predicates.cpp:843-845, 1074-1076) -/
def finish (r : List ℚ × ℚ) : List ℚ := if r.2 ≠ 0 ∨ r.1 = [] then r.1 ++ [r.2] else r.1

/-- `fast_expansion_sum_zeroelim`. Both arguments have at least one component; otherwise the code reads components that do not exist,
here the result is then empty. Simplification: the code reads one component past the end of both arguments and does not use it, see
`fesA`. (src/utils/Predicates.cpp:779-848) -/
def fes (p : Nat) (e f : List ℚ) : List ℚ :=
  match e, f with
  | e0 :: es, f0 :: fs => finish (if pickE e0 f0 then fesRest p es (f0 :: fs) e0 else fesRest p (e0 :: es) fs f0)
  | _, _ => []

/-- The loop of `scale_expansion_zeroelim`. (src/utils/Predicates.cpp:1061-1073) -/
def scaleLoop (p : Nat) (splitter b : ℚ) : List ℚ → ℚ → List ℚ × ℚ
  | [], Q => ([], Q)
  | e :: es, Q =>
    let pr := twoProduct p splitter e b
    let s := twoSum p Q pr.2
    let q := fastTwoSum p pr.1 s.1
    let t := scaleLoop p splitter b es q.1
    (emit s.2 (emit q.2 t.1), t.2)

/-- `scale_expansion_zeroelim`. The argument has at least one component. (src/utils/Predicates.cpp:1037-1078) -/
def scale (p : Nat) (splitter : ℚ) (e : List ℚ) (b : ℚ) : List ℚ :=
  match e with
  | e0 :: es =>
    let pr := twoProduct p splitter e0 b
    let t := scaleLoop p splitter b es pr.1
    finish (emit pr.2 t.1, t.2)
  | [] => []

/-- `estimate`. (src/utils/Predicates.cpp:1132-1142) -/
def estimate (p : Nat) (e : List ℚ) : ℚ :=
  match e with
  | e0 :: es => es.foldl (fun Q y => rnd p (Q + y)) e0
  | [] => 0

/-- The last component `h[hlen - 1]`. (src/utils/Predicates.cpp:2293, 3003) -/
def top (h : List ℚ) : ℚ := h.getLastD 0

end FP
end Verif
