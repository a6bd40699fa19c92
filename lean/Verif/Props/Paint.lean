import Verif.Model.Paint
import Verif.Props.GeomCore

/-!
# C142: a picture is similar to the triangulation it shows
-/
namespace Verif
namespace Paint
open Geom

variable {K : Type*} [Field K] [LinearOrder K] [IsStrictOrderedRing K]

theorem point_eq {low high : Vec 2 K} {res : Nat} (h : ∀ d, low d < high d) (x : K) (d : Fin 2) :
    translatePoint (init low high res) x d = (x - low d + (high d - low d)) * res := by
  have : (3 : K) * (high d - low d) ≠ 0 := by
    have := h d
    have : 0 < high d - low d := by linarith
    positivity
  unfold translatePoint imgDim init
  simp only
  rw [div_mul_eq_mul_div, div_eq_iff this]
  ring

theorem length_eq {low high : Vec 2 K} {res : Nat} (h : ∀ d, low d < high d) (x : K) (d : Fin 2) :
    translateLength (init low high res) x d = x * res := by
  have : (3 : K) * (high d - low d) ≠ 0 := by
    have := h d
    have : 0 < high d - low d := by linarith
    positivity
  unfold translateLength imgDim init
  simp only
  rw [div_mul_eq_mul_div, div_eq_iff this]
  ring

/-- **C142.** The picture is a similar image of the plane: all distances are multiplied by the resolution, and the points of
a line divide it as before. -/
theorem C142_similar (low high : Vec 2 K) (res : Nat) (h : ∀ d, low d < high d) (a b : Vec 2 K) (t : K) :
    sqDist (place (init low high res) a) (place (init low high res) b) = (res : K) ^ 2 * sqDist a b ∧
      ∀ d, place (init low high res) (fun e => a e + t * (b e - a e)) d =
        place (init low high res) a d +
          t * (place (init low high res) b d - place (init low high res) a d) := by
  constructor
  · simp only [sqDist, Fin.sum_univ_two, place, point_eq h]
    ring
  · intro d
    simp only [place, point_eq h]
    ring

/-- **C142.** The bounds are drawn in the middle of the image: a point is within them exactly if its position is in the
middle third of the image in both directions. -/
theorem C142_middle (low high : Vec 2 K) (res : Nat) (hres : 0 < res) (h : ∀ d, low d < high d) (a : Vec 2 K) :
    (∀ d, low d ≤ a d ∧ a d ≤ high d) ↔
      ∀ d, imgDim (init low high res) d ≤ 3 * place (init low high res) a d ∧
        3 * place (init low high res) a d ≤ 2 * imgDim (init low high res) d := by
  have hr : (0 : K) < res := by exact_mod_cast hres
  refine forall_congr' fun d => ?_
  simp only [place, point_eq h]
  have e : imgDim (init low high res) d = 3 * (high d - low d) * res := by
    simp [imgDim, init]
  rw [e]
  constructor
  · rintro ⟨h1, h2⟩
    constructor
    · have := mul_le_mul_of_nonneg_right h1 hr.le
      nlinarith
    · have := mul_le_mul_of_nonneg_right h2 hr.le
      nlinarith
  · rintro ⟨h1, h2⟩
    constructor
    · by_contra hlt
      have := mul_lt_mul_of_pos_right (not_le.mp hlt) hr
      nlinarith
    · by_contra hlt
      have := mul_lt_mul_of_pos_right (not_le.mp hlt) hr
      nlinarith

/-- **C142.** The rectangle of a box begins at the position of its lower corner and ends at that of its upper corner. -/
theorem C142_box (low high : Vec 2 K) (res : Nat) (h : ∀ d, low d < high d) (bl bh : Vec 2 K) (d : Fin 2) :
    (drawBox (init low high res) bl bh).1 d = place (init low high res) bl d ∧
      (drawBox (init low high res) bl bh).1 d + (drawBox (init low high res) bl bh).2 d =
        place (init low high res) bh d := by
  simp only [drawBox, place, point_eq h, length_eq h, true_and]
  ring

/-- **C142.** A point is on a circle exactly if its position is on the drawn circle. -/
theorem C142_circle (low high : Vec 2 K) (res : Nat) (hres : 0 < res) (h : ∀ d, low d < high d) (c : Vec 2 K) (r : K)
    (a : Vec 2 K) :
    sqDist a c = r ^ 2 ↔
      sqDist (place (init low high res) a) (drawCircle (init low high res) c r).1 =
        (drawCircle (init low high res) c r).2 ^ 2 := by
  have hr : (res : K) ^ 2 ≠ 0 := by
    have : (0 : K) < res := by exact_mod_cast hres
    positivity
  simp only [drawCircle, length_eq h]
  rw [(C142_similar low high res h a c 0).1, mul_pow, mul_comm (r ^ 2)]
  exact (mul_right_inj' hr).symm

/-- **C142.** Of a simplex each edge is drawn once, between the positions of its vertices; a simplex with an infinite vertex is
only drawn on request. -/
theorem C142_edges (p : Painter K) (pts : BitVec 64 → Vec 2 K) (v : Fin 3 → BitVec 64) (inf : Bool) :
    ((inf = true ∨ ∀ d, PointId.isFinite 2 (v d) = true) →
        (drawSimplex p pts v inf).length = 3 ∧
          ∀ i j : Fin 3, i ≠ j →
            (place p (pts (v i)), place p (pts (v j))) ∈ drawSimplex p pts v inf ∨
              (place p (pts (v j)), place p (pts (v i))) ∈ drawSimplex p pts v inf) ∧
      ((inf = false ∧ ∃ d, PointId.isFinite 2 (v d) = false) → drawSimplex p pts v inf = []) := by
  constructor
  · intro h
    have hc : (inf || (PointId.isFinite 2 (v 0) && PointId.isFinite 2 (v 1) && PointId.isFinite 2 (v 2))) = true := by
      rcases h with h | h
      · simp [h]
      · simp [h 0, h 1, h 2]
    unfold drawSimplex
    simp only [hc, if_true]
    refine ⟨rfl, ?_⟩
    intro i j hij
    fin_cases i <;> fin_cases j <;> simp at hij ⊢
  · rintro ⟨h1, d, hd⟩
    have hc : (inf || (PointId.isFinite 2 (v 0) && PointId.isFinite 2 (v 1) && PointId.isFinite 2 (v 2))) = false := by
      fin_cases d <;> simp at hd <;> simp [h1, hd]
    unfold drawSimplex
    simp only [hc, Bool.false_eq_true, if_false]

/-- **C142 (violated).** Drawing all points also draws the entry 0 of the container, a point at the origin that is not part of the
data. -/
theorem C142_points_violated {K : Type} [Field K] (p : Painter K) (lines : List (Vec 2 K)) :
    drawPoints p (PointId.loaded (fun _ => 0) lines) = place p (fun _ => 0) :: lines.map (place p) := by
  simp [drawPoints, PointId.loaded, PointId.newPoints]

/-- **C142 (partial).** Each point of the data is drawn at its position, in the order of the ids. -/
theorem C142_points_partial {K : Type} [Field K] (p : Painter K) (lines : List (Vec 2 K)) (k : Nat) (hk : k < lines.length) :
    (drawPoints p (PointId.loaded (fun _ => 0) lines))[k + 1]? = some (place p lines[k]) := by
  simp [drawPoints, PointId.loaded, PointId.newPoints, hk]

/-- The hypotheses hold for the bounds from (0,0) to (4,2) and resolution 10: the image has 120 times 60 pixels, the upper
corner is at (80,40), and the point (3,0) of the circle around (0,0) is drawn 30 pixels from the centre. -/
example : (∀ d, (![0, 0] : Vec 2 ℚ) d < (![4, 2] : Vec 2 ℚ) d) ∧
    imgDim (init (![0, 0] : Vec 2 ℚ) ![4, 2] 10) 0 = 120 ∧
    imgDim (init (![0, 0] : Vec 2 ℚ) ![4, 2] 10) 1 = 60 ∧
    place (init (![0, 0] : Vec 2 ℚ) ![4, 2] 10) ![4, 2] 0 = 80 ∧
    place (init (![0, 0] : Vec 2 ℚ) ![4, 2] 10) ![4, 2] 1 = 40 ∧
    (drawCircle (init (![0, 0] : Vec 2 ℚ) ![4, 2] 10) ![0, 0] 3).2 = 30 := by
  decide +kernel

/-- Two vertices finite, the third infinite. -/
example : PointId.isFinite 2 (-1#64) = false ∧
    drawSimplex (init (![0, 0] : Vec 2 ℚ) ![4, 2] 10) (fun _ => ![0, 0]) ![1#64, 2#64, -1#64] false = [] := by
  constructor
  · decide
  · exact (C142_edges _ _ _ _).2 ⟨rfl, 2, by decide⟩

end Paint
end Verif
