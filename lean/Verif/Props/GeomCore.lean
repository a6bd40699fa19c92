import Verif.Model.GeomCore
import Mathlib.LinearAlgebra.Matrix.ToLinearEquiv
import Mathlib.LinearAlgebra.Matrix.Determinant.Basic
import Mathlib.Algebra.BigOperators.Fin
import Mathlib.Algebra.Order.Ring.Abs
import Mathlib.Algebra.Order.Ring.Rat
import Mathlib.Tactic.Linarith
import Mathlib.Tactic.LinearCombination
import Mathlib.Tactic.Ring
import Mathlib.Tactic.FieldSimp
import Mathlib.Tactic.Positivity
import Mathlib.Tactic.FinCases

/-!
# C37-C40: circumspheres and point/simplex predicates

Statements are about points of the plane and of 3-space over an arbitrary linear ordered field; `sqrt`
is any function that takes square roots of non-negative numbers.
-/
namespace Verif
namespace Geom
variable {K : Type*} [Field K] [LinearOrder K] [IsStrictOrderedRing K]

/-- Squared Euclidean distance. -/
def sqDist {D : Nat} (a b : Vec D K) : K := ∑ i, (a i - b i) ^ 2

/-- The triangle is not degenerate: its edge vectors are linearly independent. -/
def NonDeg2 (s0 s1 s2 : Vec 2 K) : Prop :=
  ∀ a b : K, (∀ i, a * (s1 i - s0 i) + b * (s2 i - s0 i) = 0) → a = 0 ∧ b = 0

/-- The tetrahedron is not degenerate: its edge vectors are linearly independent. -/
def NonDeg3 (s0 s1 s2 s3 : Vec 3 K) : Prop :=
  ∀ a b c : K, (∀ i, a * (s1 i - s0 i) + b * (s2 i - s0 i) + c * (s3 i - s0 i) = 0) →
    a = 0 ∧ b = 0 ∧ c = 0

/-- `sqrt` is a square root. -/
def IsSqrt (sqrt : K → K) : Prop := ∀ x, 0 ≤ x → 0 ≤ sqrt x ∧ sqrt x ^ 2 = x

theorem orient2_ne {s0 s1 s2 : Vec 2 K} (h : NonDeg2 s0 s1 s2) : orient2 s0 s1 s2 ≠ 0 := by
  intro h0
  let M : Matrix (Fin 2) (Fin 2) K := !![s1 0 - s0 0, s2 0 - s0 0; s1 1 - s0 1, s2 1 - s0 1]
  have hdet : M.det = 0 := by
    rw [Matrix.det_fin_two_of, ← h0]
    simp only [orient2]
    ring
  obtain ⟨v, hv, hM⟩ := Matrix.exists_mulVec_eq_zero_iff.mpr hdet
  have h1 := congrFun hM 0
  have h2 := congrFun hM 1
  simp [M, Matrix.mulVec, dotProduct, Fin.sum_univ_two] at h1 h2
  have := h (v 0) (v 1) (by
    intro i
    fin_cases i
    · simp only [Fin.zero_eta, Fin.isValue]; linarith
    · simp only [Fin.mk_one, Fin.isValue]; linarith)
  apply hv
  funext i
  fin_cases i
  · exact this.1
  · exact this.2

theorem orient3_ne {s0 s1 s2 s3 : Vec 3 K} (h : NonDeg3 s0 s1 s2 s3) : orient3 s0 s1 s2 s3 ≠ 0 := by
  intro h0
  let M : Matrix (Fin 3) (Fin 3) K := !![s1 0 - s0 0, s2 0 - s0 0, s3 0 - s0 0;
    s1 1 - s0 1, s2 1 - s0 1, s3 1 - s0 1; s1 2 - s0 2, s2 2 - s0 2, s3 2 - s0 2]
  have hdet : M.det = 0 := by
    rw [Matrix.det_fin_three]
    simp only [orient3] at h0
    simp [M]
    linear_combination (-1 : K) * h0
  obtain ⟨v, hv, hM⟩ := Matrix.exists_mulVec_eq_zero_iff.mpr hdet
  have h1 := congrFun hM 0
  have h2 := congrFun hM 1
  have h3 := congrFun hM 2
  simp [M, Matrix.mulVec, dotProduct, Fin.sum_univ_three] at h1 h2 h3
  have := h (v 0) (v 1) (v 2) (by
    intro i
    fin_cases i
    · simp only [Fin.zero_eta, Fin.isValue]; linarith
    · simp only [Fin.mk_one, Fin.isValue]; linarith
    · simp only [Fin.reduceFinMk, Fin.isValue]; linarith)
  apply hv
  funext i
  fin_cases i
  · exact this.1
  · exact this.2.1
  · exact this.2.2

theorem den2 (s0 s1 s2 : Vec 2 K) : circumDen2 s0 s1 s2 = 2 * orient2 s0 s1 s2 := by
  simp only [circumDen2, orient2]; ring

theorem den3 (s0 s1 s2 s3 : Vec 3 K) : circumDen3 s0 s1 s2 s3 = 2 * orient3 s0 s1 s2 s3 := by
  simp only [circumDen3, orient3]; ring

theorem key2 (s0 s1 s2 x : Vec 2 K) :
    circumDen2 s0 s1 s2 * ((x 0 ^ 2 + x 1 ^ 2) - (s0 0 ^ 2 + s0 1 ^ 2))
      - 2 * (circumNum2_0 s0 s1 s2 * (x 0 - s0 0) + circumNum2_1 s0 s1 s2 * (x 1 - s0 1))
      = -2 * insphereDet2 s0 s1 s2 x := by
  simp only [circumDen2, circumNum2_0, circumNum2_1, insphereDet2]
  ring

theorem key3 (s0 s1 s2 s3 x : Vec 3 K) :
    circumDen3 s0 s1 s2 s3 * ((x 0 ^ 2 + x 1 ^ 2 + x 2 ^ 2) - (s0 0 ^ 2 + s0 1 ^ 2 + s0 2 ^ 2))
      - 2 * (circumNum3_0 s0 s1 s2 s3 * (x 0 - s0 0) + circumNum3_1 s0 s1 s2 s3 * (x 1 - s0 1)
        + circumNum3_2 s0 s1 s2 s3 * (x 2 - s0 2))
      = -2 * insphereDet3 s0 s1 s2 s3 x := by
  simp only [circumDen3, circumNum3_0, circumNum3_1, circumNum3_2, insphereDet3]
  ring

/-- The power of `x` with respect to the computed circumcircle. -/
theorem power2 (sqrt : K → K) {s0 s1 s2 : Vec 2 K} (x : Vec 2 K) (h : orient2 s0 s1 s2 ≠ 0) :
    sqDist x (circumsphere2 sqrt s0 s1 s2).center =
      sqDist s0 (circumsphere2 sqrt s0 s1 s2).center - insphereDet2 s0 s1 s2 x / orient2 s0 s1 s2 := by
  have hd : circumDen2 s0 s1 s2 ≠ 0 := by rw [den2]; exact mul_ne_zero two_ne_zero h
  have hdo := den2 s0 s1 s2
  have hk := key2 s0 s1 s2 x
  simp only [sqDist, circumsphere2, Fin.sum_univ_two, Matrix.cons_val_zero, Matrix.cons_val_one]
  have e : insphereDet2 s0 s1 s2 x / orient2 s0 s1 s2 =
      2 * insphereDet2 s0 s1 s2 x / circumDen2 s0 s1 s2 := by
    rw [hdo]; field_simp
  rw [e]
  generalize circumDen2 s0 s1 s2 = d at *
  generalize circumNum2_0 s0 s1 s2 = n0 at *
  generalize circumNum2_1 s0 s1 s2 = n1 at *
  generalize insphereDet2 s0 s1 s2 x = q at *
  have e0 : 2 * q / d = -((x 0 ^ 2 + x 1 ^ 2) - (s0 0 ^ 2 + s0 1 ^ 2))
      + 2 * (n0 / d * (x 0 - s0 0) + n1 / d * (x 1 - s0 1)) := by
    field_simp
    linear_combination hk
  rw [e0]
  ring

theorem power3 (sqrt : K → K) {s0 s1 s2 s3 : Vec 3 K} (x : Vec 3 K) (h : orient3 s0 s1 s2 s3 ≠ 0) :
    sqDist x (circumsphere3 sqrt s0 s1 s2 s3).center =
      sqDist s0 (circumsphere3 sqrt s0 s1 s2 s3).center
        - insphereDet3 s0 s1 s2 s3 x / orient3 s0 s1 s2 s3 := by
  have hd : circumDen3 s0 s1 s2 s3 ≠ 0 := by rw [den3]; exact mul_ne_zero two_ne_zero h
  have hdo := den3 s0 s1 s2 s3
  have hk := key3 s0 s1 s2 s3 x
  simp only [sqDist, circumsphere3, Fin.sum_univ_three, Matrix.cons_val_zero, Matrix.cons_val_one,
    Matrix.cons_val]
  have e : insphereDet3 s0 s1 s2 s3 x / orient3 s0 s1 s2 s3 =
      2 * insphereDet3 s0 s1 s2 s3 x / circumDen3 s0 s1 s2 s3 := by
    rw [hdo]; field_simp
  rw [e]
  generalize circumDen3 s0 s1 s2 s3 = d at *
  generalize circumNum3_0 s0 s1 s2 s3 = n0 at *
  generalize circumNum3_1 s0 s1 s2 s3 = n1 at *
  generalize circumNum3_2 s0 s1 s2 s3 = n2 at *
  generalize insphereDet3 s0 s1 s2 s3 x = q at *
  have e0 : 2 * q / d = -((x 0 ^ 2 + x 1 ^ 2 + x 2 ^ 2) - (s0 0 ^ 2 + s0 1 ^ 2 + s0 2 ^ 2))
      + 2 * (n0 / d * (x 0 - s0 0) + n1 / d * (x 1 - s0 1) + n2 / d * (x 2 - s0 2)) := by
    field_simp
    linear_combination hk
  rw [e0]
  ring

theorem sqDist_nonneg {D : Nat} (a b : Vec D K) : 0 ≤ sqDist a b :=
  Finset.sum_nonneg fun i _ => sq_nonneg _

theorem sqDist_comm {D : Nat} (a b : Vec D K) : sqDist a b = sqDist b a :=
  Finset.sum_congr rfl fun i _ => by ring

theorem radius2 {sqrt : K → K} (hs : IsSqrt sqrt) (s0 s1 s2 : Vec 2 K) :
    0 ≤ (circumsphere2 sqrt s0 s1 s2).radius ∧
      (circumsphere2 sqrt s0 s1 s2).radius ^ 2 = sqDist s0 (circumsphere2 sqrt s0 s1 s2).center := by
  rw [sqDist_comm]
  have := hs (sqDist (circumsphere2 sqrt s0 s1 s2).center s0) (sqDist_nonneg _ _)
  simp only [sqDist, Fin.sum_univ_two] at this ⊢
  exact this

theorem radius3 {sqrt : K → K} (hs : IsSqrt sqrt) (s0 s1 s2 s3 : Vec 3 K) :
    0 ≤ (circumsphere3 sqrt s0 s1 s2 s3).radius ∧
      (circumsphere3 sqrt s0 s1 s2 s3).radius ^ 2 =
        sqDist s0 (circumsphere3 sqrt s0 s1 s2 s3).center := by
  rw [sqDist_comm]
  have := hs (sqDist (circumsphere3 sqrt s0 s1 s2 s3).center s0) (sqDist_nonneg _ _)
  simp only [sqDist, Fin.sum_univ_three] at this ⊢
  exact this

/-- **C37 (2D).** The circumcircle passes through the three vertices. -/
theorem C37_circumsphere2 (sqrt : K → K) (hs : IsSqrt sqrt) (s0 s1 s2 : Vec 2 K)
    (h : NonDeg2 s0 s1 s2) :
    0 ≤ (circumsphere2 sqrt s0 s1 s2).radius ∧
      ∀ v ∈ [s0, s1, s2], sqDist v (circumsphere2 sqrt s0 s1 s2).center =
        (circumsphere2 sqrt s0 s1 s2).radius ^ 2 := by
  have ho := orient2_ne h
  refine ⟨(radius2 hs _ _ _).1, ?_⟩
  rw [(radius2 hs _ _ _).2]
  have e1 : insphereDet2 s0 s1 s2 s1 = 0 := by simp only [insphereDet2]; ring
  have e2 : insphereDet2 s0 s1 s2 s2 = 0 := by simp only [insphereDet2]; ring
  intro v hv
  simp only [List.mem_cons, List.not_mem_nil, or_false] at hv
  rcases hv with rfl | rfl | rfl
  · rfl
  · rw [power2 sqrt v ho, e1]; simp
  · rw [power2 sqrt v ho, e2]; simp

/-- **C37 (3D).** The circumsphere passes through the four vertices. -/
theorem C37_circumsphere3 (sqrt : K → K) (hs : IsSqrt sqrt) (s0 s1 s2 s3 : Vec 3 K)
    (h : NonDeg3 s0 s1 s2 s3) :
    0 ≤ (circumsphere3 sqrt s0 s1 s2 s3).radius ∧
      ∀ v ∈ [s0, s1, s2, s3], sqDist v (circumsphere3 sqrt s0 s1 s2 s3).center =
        (circumsphere3 sqrt s0 s1 s2 s3).radius ^ 2 := by
  have ho := orient3_ne h
  refine ⟨(radius3 hs _ _ _ _).1, ?_⟩
  rw [(radius3 hs _ _ _ _).2]
  have e1 : insphereDet3 s0 s1 s2 s3 s1 = 0 := by simp only [insphereDet3]; ring
  have e2 : insphereDet3 s0 s1 s2 s3 s2 = 0 := by simp only [insphereDet3]; ring
  have e3 : insphereDet3 s0 s1 s2 s3 s3 = 0 := by simp only [insphereDet3]; ring
  intro v hv
  simp only [List.mem_cons, List.not_mem_nil, or_false] at hv
  rcases hv with rfl | rfl | rfl | rfl
  · rfl
  · rw [power3 sqrt v ho, e1]; simp
  · rw [power3 sqrt v ho, e2]; simp
  · rw [power3 sqrt v ho, e3]; simp

theorem sign_iff {o q a b : K} (ho : o ≠ 0) (h : a = b - q / o) : o * q ≥ 0 ↔ a ≤ b := by
  have hq : o * q = o ^ 2 * (b - a) := by
    rw [h]; field_simp; ring
  have ho2 : 0 < o ^ 2 := by positivity
  rw [ge_iff_le, hq]
  constructor
  · intro h1
    by_contra h2
    have := mul_neg_of_pos_of_neg ho2 (by linarith : b - a < 0)
    linarith
  · intro h1
    exact mul_nonneg ho2.le (by linarith)

/-- **C38 (2D).** `inSphere` decides membership in the closed circumdisc, whatever the orientation of
the triangle. -/
theorem C38_inSphere2 (sqrt : K → K) (hs : IsSqrt sqrt) (p s0 s1 s2 : Vec 2 K)
    (h : NonDeg2 s0 s1 s2) :
    inSphere2 p s0 s1 s2 = true ↔
      sqDist p (circumsphere2 sqrt s0 s1 s2).center ≤ (circumsphere2 sqrt s0 s1 s2).radius ^ 2 := by
  rw [inSphere2, decide_eq_true_eq, (radius2 hs _ _ _).2]
  exact sign_iff (orient2_ne h) (power2 sqrt p (orient2_ne h))

/-- **C38 (3D).** `inSphere` decides membership in the closed circumball, whatever the orientation of
the tetrahedron. -/
theorem C38_inSphere3 (sqrt : K → K) (hs : IsSqrt sqrt) (p s0 s1 s2 s3 : Vec 3 K)
    (h : NonDeg3 s0 s1 s2 s3) :
    inSphere3 p s0 s1 s2 s3 = true ↔
      sqDist p (circumsphere3 sqrt s0 s1 s2 s3).center ≤
        (circumsphere3 sqrt s0 s1 s2 s3).radius ^ 2 := by
  rw [inSphere3, decide_eq_true_eq, (radius3 hs _ _ _ _).2]
  exact sign_iff (orient3_ne h) (power3 sqrt p (orient3_ne h))

/-- A non-degenerate triangle of negative orientation whose circumcircle has centre (1,1). -/
example : NonDeg2 (![0, 0] : Vec 2 ℚ) ![0, 2] ![2, 0] ∧ orient2 (![0, 0] : Vec 2 ℚ) ![0, 2] ![2, 0] < 0 ∧
    inSphere2 (![2, 2] : Vec 2 ℚ) ![0, 0] ![0, 2] ![2, 0] = true ∧
    inSphere2 (![2, 3] : Vec 2 ℚ) ![0, 0] ![0, 2] ![2, 0] = false ∧
    (circumsphere2 (fun x => x) (![0, 0] : Vec 2 ℚ) ![0, 2] ![2, 0]).center = ![1, 1] := by
  refine ⟨?_, by decide +kernel, by decide +kernel, by decide +kernel, ?_⟩
  · intro a b h
    have h0 := h 0
    have h1 := h 1
    simp at h0 h1
    exact ⟨h1, h0⟩
  · funext i
    fin_cases i <;> decide +kernel

/-- A non-degenerate tetrahedron. -/
example : NonDeg3 (![0, 0, 0] : Vec 3 ℚ) ![2, 0, 0] ![0, 2, 0] ![0, 0, 2] ∧
    inSphere3 (![2, 2, 2] : Vec 3 ℚ) ![0, 0, 0] ![2, 0, 0] ![0, 2, 0] ![0, 0, 2] = true ∧
    inSphere3 (![2, 2, 3] : Vec 3 ℚ) ![0, 0, 0] ![2, 0, 0] ![0, 2, 0] ![0, 0, 2] = false ∧
    (circumsphere3 (fun x => x) (![0, 0, 0] : Vec 3 ℚ) ![2, 0, 0] ![0, 2, 0] ![0, 0, 2]).center =
      ![1, 1, 1] := by
  refine ⟨?_, by decide +kernel, by decide +kernel, ?_⟩
  · intro a b c h
    have h0 := h 0
    have h1 := h 1
    have h2 := h 2
    simp at h0 h1 h2
    exact ⟨h0, h1, h2⟩
  · funext i
    fin_cases i <;> decide +kernel

/-! ### C39 -/

theorem dot2 (a b : Vec 2 K) : dot a b = a 0 * b 0 + a 1 * b 1 := by
  simp [dot, List.finRange_succ]

theorem dot3 (a b : Vec 3 K) : dot a b = a 0 * b 0 + a 1 * b 1 + a 2 * b 2 := by
  simp [dot, List.finRange_succ]

/-- **C39 (2D).** `inSimplex` holds exactly for the convex combinations of the vertices. -/
theorem C39_inSimplex2 (p s0 s1 s2 : Vec 2 K) (h : NonDeg2 s0 s1 s2) :
    inSimplex2 p s0 s1 s2 = true ↔
      ∃ a b c : K, 0 ≤ a ∧ 0 ≤ b ∧ 0 ≤ c ∧ a + b + c = 1 ∧
        ∀ i, p i = a * s0 i + b * s1 i + c * s2 i := by
  have ho := orient2_ne h
  -- uniqueness: the computed numbers are the coefficients of any affine combination
  have huv : ∀ b c : K, (∀ i, p i = (1 - b - c) * s0 i + b * s1 i + c * s2 i) →
      (inSimplex2 p s0 s1 s2 = true ↔ 0 ≤ b ∧ 0 ≤ c ∧ b + c ≤ 1) := by
    intro b c hbc
    have g11 := dot2 (vsub s1 s0) (vsub s1 s0)
    have g12 := dot2 (vsub s1 s0) (vsub s2 s0)
    have g22 := dot2 (vsub s2 s0) (vsub s2 s0)
    have e1 : dot (vsub s1 s0) (vsub p s0) =
        b * dot (vsub s1 s0) (vsub s1 s0) + c * dot (vsub s1 s0) (vsub s2 s0) := by
      simp only [dot2, vsub, hbc]; ring
    have e2 : dot (vsub s2 s0) (vsub p s0) =
        b * dot (vsub s1 s0) (vsub s2 s0) + c * dot (vsub s2 s0) (vsub s2 s0) := by
      simp only [dot2, vsub, hbc]; ring
    have hdet : dot (vsub s1 s0) (vsub s2 s0) * dot (vsub s1 s0) (vsub s2 s0) -
        dot (vsub s1 s0) (vsub s1 s0) * dot (vsub s2 s0) (vsub s2 s0) ≠ 0 := by
      have : dot (vsub s1 s0) (vsub s2 s0) * dot (vsub s1 s0) (vsub s2 s0) -
          dot (vsub s1 s0) (vsub s1 s0) * dot (vsub s2 s0) (vsub s2 s0) =
          -(orient2 s0 s1 s2) ^ 2 := by
        simp only [dot2, vsub, orient2]; ring
      rw [this]
      exact neg_ne_zero.mpr (pow_ne_zero _ ho)
    unfold inSimplex2
    simp only [e1, e2]
    clear g11 g12 g22
    generalize dot (vsub s1 s0) (vsub s2 s0) = g12 at *
    generalize dot (vsub s1 s0) (vsub s1 s0) = g11 at *
    generalize dot (vsub s2 s0) (vsub s2 s0) = g22 at *
    have hu : -(((b * g11 + c * g12) * g22 - g12 * (b * g12 + c * g22)) *
        (1 / (g12 * g12 - g11 * g22))) = b := by
      rw [← mul_div_assoc, ← neg_div, div_eq_iff hdet]; ring
    have hv : -((-g12 * (b * g11 + c * g12) + g11 * (b * g12 + c * g22)) *
        (1 / (g12 * g12 - g11 * g22))) = c := by
      rw [← mul_div_assoc, ← neg_div, div_eq_iff hdet]; ring
    rw [hu, hv]
    simp [and_assoc]
  constructor
  · intro hin
    -- existence by Cramer's rule
    let b := orient2 s0 p s2 / orient2 s0 s1 s2
    let c := orient2 s0 s1 p / orient2 s0 s1 s2
    have hbc : ∀ i, p i = (1 - b - c) * s0 i + b * s1 i + c * s2 i := by
      intro i
      have e : (1 - b - c) * s0 i + b * s1 i + c * s2 i = s0 i + (orient2 s0 p s2 * (s1 i - s0 i)
          + orient2 s0 s1 p * (s2 i - s0 i)) / orient2 s0 s1 s2 := by
        simp only [b, c]; field_simp; ring
      rw [e, ← sub_eq_iff_eq_add', eq_div_iff ho]
      fin_cases i
      · simp only [orient2, Fin.zero_eta]; ring
      · simp only [orient2, Fin.mk_one]; ring
    obtain ⟨h1, h2, h3⟩ := (huv b c hbc).mp hin
    exact ⟨1 - b - c, b, c, by linarith, h1, h2, by ring, hbc⟩
  · rintro ⟨a, b, c, ha, hb, hc, hsum, hp⟩
    have : a = 1 - b - c := by linarith
    subst this
    exact (huv b c hp).mpr ⟨hb, hc, by linarith⟩

/-- **C39 (3D).** `inSimplex` holds exactly for the convex combinations of the vertices. -/
theorem C39_inSimplex3 (p s0 s1 s2 s3 : Vec 3 K) (h : NonDeg3 s0 s1 s2 s3) :
    inSimplex3 p s0 s1 s2 s3 = true ↔
      ∃ a b c d : K, 0 ≤ a ∧ 0 ≤ b ∧ 0 ≤ c ∧ 0 ≤ d ∧ a + b + c + d = 1 ∧
        ∀ i, p i = a * s0 i + b * s1 i + c * s2 i + d * s3 i := by
  have ho := orient3_ne h
  have huv : ∀ b c d : K, (∀ i, p i = (1 - b - c - d) * s0 i + b * s1 i + c * s2 i + d * s3 i) →
      (inSimplex3 p s0 s1 s2 s3 = true ↔ 0 ≤ b ∧ 0 ≤ c ∧ 0 ≤ d ∧ b + c + d ≤ 1) := by
    intro b c d hbc
    have e1 : dot (vsub s1 s0) (vsub p s0) = b * dot (vsub s1 s0) (vsub s1 s0) +
        c * dot (vsub s1 s0) (vsub s2 s0) + d * dot (vsub s1 s0) (vsub s3 s0) := by
      simp only [dot3, vsub, hbc]; ring
    have e2 : dot (vsub s2 s0) (vsub p s0) = b * dot (vsub s1 s0) (vsub s2 s0) +
        c * dot (vsub s2 s0) (vsub s2 s0) + d * dot (vsub s2 s0) (vsub s3 s0) := by
      simp only [dot3, vsub, hbc]; ring
    have e3 : dot (vsub s3 s0) (vsub p s0) = b * dot (vsub s1 s0) (vsub s3 s0) +
        c * dot (vsub s2 s0) (vsub s3 s0) + d * dot (vsub s3 s0) (vsub s3 s0) := by
      simp only [dot3, vsub, hbc]; ring
    have hdet : dot (vsub s1 s0) (vsub s3 s0) * dot (vsub s1 s0) (vsub s3 s0) * dot (vsub s2 s0) (vsub s2 s0)
        - 2 * dot (vsub s1 s0) (vsub s2 s0) * dot (vsub s1 s0) (vsub s3 s0) * dot (vsub s2 s0) (vsub s3 s0)
        + dot (vsub s1 s0) (vsub s1 s0) * dot (vsub s2 s0) (vsub s3 s0) * dot (vsub s2 s0) (vsub s3 s0)
        + dot (vsub s1 s0) (vsub s2 s0) * dot (vsub s1 s0) (vsub s2 s0) * dot (vsub s3 s0) (vsub s3 s0)
        - dot (vsub s1 s0) (vsub s1 s0) * dot (vsub s2 s0) (vsub s2 s0) * dot (vsub s3 s0) (vsub s3 s0)
        ≠ 0 := by
      have ho' : orient3 s0 s1 s2 s3 =
          -((vsub s1 s0 0) * ((vsub s2 s0 2) * (vsub s3 s0 1) - (vsub s2 s0 1) * (vsub s3 s0 2))
          + (vsub s1 s0 1) * ((vsub s2 s0 0) * (vsub s3 s0 2) - (vsub s2 s0 2) * (vsub s3 s0 0))
          + (vsub s1 s0 2) * ((vsub s2 s0 1) * (vsub s3 s0 0) - (vsub s2 s0 0) * (vsub s3 s0 1))) := by
        simp only [orient3, vsub]; ring
      have e := pow_ne_zero 2 ho
      rw [ho'] at e
      refine fun hz => e ?_
      simp only [dot3] at hz
      linear_combination -hz
    unfold inSimplex3
    simp only [e1, e2, e3]
    generalize dot (vsub s1 s0) (vsub s1 s0) = g11 at *
    generalize dot (vsub s1 s0) (vsub s2 s0) = g12 at *
    generalize dot (vsub s1 s0) (vsub s3 s0) = g13 at *
    generalize dot (vsub s2 s0) (vsub s2 s0) = g22 at *
    generalize dot (vsub s2 s0) (vsub s3 s0) = g23 at *
    generalize dot (vsub s3 s0) (vsub s3 s0) = g33 at *
    rw [show -((-(b * g11 + c * g12 + d * g13) * g23 * g23 + g13 * g23 * (b * g12 + c * g22 + d * g23)
        + (b * g11 + c * g12 + d * g13) * g22 * g33 - g12 * (b * g12 + c * g22 + d * g23) * g33
        - g13 * g22 * (b * g13 + c * g23 + d * g33) + g12 * g23 * (b * g13 + c * g23 + d * g33)) *
        (1 / (g13 * g13 * g22 - 2 * g12 * g13 * g23 + g11 * g23 * g23 + g12 * g12 * g33 - g11 * g22 * g33)))
        = b by rw [← mul_div_assoc, ← neg_div, div_eq_iff hdet]; ring,
      show -((g13 * (b * g11 + c * g12 + d * g13) * g23 - g13 * g13 * (b * g12 + c * g22 + d * g23)
        - g12 * (b * g11 + c * g12 + d * g13) * g33 + g11 * (b * g12 + c * g22 + d * g23) * g33
        + g12 * g13 * (b * g13 + c * g23 + d * g33) - g11 * g23 * (b * g13 + c * g23 + d * g33)) *
        (1 / (g13 * g13 * g22 - 2 * g12 * g13 * g23 + g11 * g23 * g23 + g12 * g12 * g33 - g11 * g22 * g33)))
        = c by rw [← mul_div_assoc, ← neg_div, div_eq_iff hdet]; ring,
      show -((-g13 * (b * g11 + c * g12 + d * g13) * g22 + g12 * (b * g11 + c * g12 + d * g13) * g23
        + g12 * g13 * (b * g12 + c * g22 + d * g23) - g11 * g23 * (b * g12 + c * g22 + d * g23)
        - g12 * g12 * (b * g13 + c * g23 + d * g33) + g11 * g22 * (b * g13 + c * g23 + d * g33)) *
        (1 / (g13 * g13 * g22 - 2 * g12 * g13 * g23 + g11 * g23 * g23 + g12 * g12 * g33 - g11 * g22 * g33)))
        = d by rw [← mul_div_assoc, ← neg_div, div_eq_iff hdet]; ring]
    simp [and_assoc]
  constructor
  · intro hin
    let b := orient3 s0 p s2 s3 / orient3 s0 s1 s2 s3
    let c := orient3 s0 s1 p s3 / orient3 s0 s1 s2 s3
    let d := orient3 s0 s1 s2 p / orient3 s0 s1 s2 s3
    have hbc : ∀ i, p i = (1 - b - c - d) * s0 i + b * s1 i + c * s2 i + d * s3 i := by
      intro i
      have e : (1 - b - c - d) * s0 i + b * s1 i + c * s2 i + d * s3 i =
          s0 i + (orient3 s0 p s2 s3 * (s1 i - s0 i) + orient3 s0 s1 p s3 * (s2 i - s0 i)
            + orient3 s0 s1 s2 p * (s3 i - s0 i)) / orient3 s0 s1 s2 s3 := by
        simp only [b, c, d]; field_simp; ring
      rw [e, ← sub_eq_iff_eq_add', eq_div_iff ho]
      fin_cases i
      · simp only [orient3, Fin.zero_eta]; ring
      · simp only [orient3, Fin.mk_one]; ring
      · simp only [orient3, Fin.reduceFinMk]; ring
    obtain ⟨h1, h2, h3, h4⟩ := (huv b c d hbc).mp hin
    exact ⟨1 - b - c - d, b, c, d, by linarith, h1, h2, h3, by ring, hbc⟩
  · rintro ⟨a, b, c, d, ha, hb, hc, hd, hsum, hp⟩
    have : a = 1 - b - c - d := by linarith
    subst this
    exact (huv b c d hp).mpr ⟨hb, hc, hd, by linarith⟩

/-- Points inside, on and outside of a triangle and a tetrahedron. -/
example : inSimplex2 (![1, 1] : Vec 2 ℚ) ![0, 0] ![0, 2] ![2, 0] = true ∧
    inSimplex2 (![1, 3/2] : Vec 2 ℚ) ![0, 0] ![0, 2] ![2, 0] = false ∧
    inSimplex3 (![1/2, 1/2, 1/2] : Vec 3 ℚ) ![0, 0, 0] ![2, 0, 0] ![0, 2, 0] ![0, 0, 2] = true ∧
    inSimplex3 (![1, 1, 1] : Vec 3 ℚ) ![0, 0, 0] ![2, 0, 0] ![0, 2, 0] ![0, 0, 2] = false := by
  decide +kernel

/-! ### C40 -/

/-- `d` is the squared distance of `p` from the set `S`: attained, and a lower bound. -/
def IsSqDist {D : Nat} (p : Vec D K) (S : Set (Vec D K)) (d : K) : Prop :=
  (∃ x ∈ S, sqDist p x = d) ∧ ∀ x ∈ S, d ≤ sqDist p x

/-- The line through the face (edge) of a triangle. -/
def line2 (s0 s1 : Vec 2 K) : Set (Vec 2 K) := {x | ∃ t : K, ∀ i, x i = s0 i + t * (s1 i - s0 i)}

/-- The plane through the face of a tetrahedron. -/
def plane3 (s0 s1 s2 : Vec 3 K) : Set (Vec 3 K) :=
  {x | ∃ t u : K, ∀ i, x i = s0 i + t * (s1 i - s0 i) + u * (s2 i - s0 i)}

/-- **C40 (violated).** The function named "squared distance" does not return it: for the face from
(0,0) to (2,0) and the point (0,1) it returns 1/2 instead of 1. -/
theorem C40_sqDistance_violated :
    IsSqDist (![0, 1] : Vec 2 ℚ) (line2 ![0, 0] ![2, 0]) 1 ∧
      sqDistanceToFace2 (![0, 1] : Vec 2 ℚ) ![0, 0] ![2, 0] = 1 / 2 := by
  refine ⟨⟨⟨![0, 0], ⟨0, by intro i; fin_cases i <;> simp⟩, ?_⟩, ?_⟩, by decide +kernel⟩
  · simp [sqDist, Fin.sum_univ_two]
  · rintro x ⟨t, hx⟩
    have h1 := hx 1
    simp at h1
    simp only [sqDist, Fin.sum_univ_two, h1]
    simp
    positivity

/-- **C40 (violated).** Nor does it order faces by distance: of two faces the one nearer to the point
gets the larger value. -/
theorem C40_order_violated :
    ∃ p a0 a1 b0 b1 : Vec 2 ℚ, ∃ da db : ℚ, IsSqDist p (line2 a0 a1) da ∧ IsSqDist p (line2 b0 b1) db ∧
      da < db ∧ sqDistanceToFace2 p b0 b1 < sqDistanceToFace2 p a0 a1 := by
  refine ⟨![0, 0], ![0, 1], ![1, 1], ![0, -2], ![8, -2], 1, 4, ?_, ?_, by norm_num, by decide +kernel⟩
  · refine ⟨⟨![0, 1], ⟨0, by intro i; fin_cases i <;> simp⟩, ?_⟩, ?_⟩
    · simp [sqDist, Fin.sum_univ_two]
    · rintro x ⟨t, hx⟩
      have h1 := hx 1
      simp at h1
      simp only [sqDist, Fin.sum_univ_two, h1]
      simp
      positivity
  · refine ⟨⟨![0, -2], ⟨0, by intro i; fin_cases i <;> simp⟩, ?_⟩, ?_⟩
    · norm_num [sqDist, Fin.sum_univ_two]
    · rintro x ⟨t, hx⟩
      have h1 := hx 1
      simp at h1
      simp only [sqDist, Fin.sum_univ_two, h1]
      norm_num
      positivity

/-- **C40 (partial, 2D).** What is computed: the distance divided by the length of the face; its
square times the squared length of the face is the squared distance. -/
theorem C40_face2_partial (p s0 s1 : Vec 2 K) (h : s0 ≠ s1) :
    0 ≤ sqDistanceToFace2 p s0 s1 ∧
      IsSqDist p (line2 s0 s1) (sqDistanceToFace2 p s0 s1 ^ 2 * sqDist s0 s1) := by
  refine ⟨abs_nonneg _, ?_⟩
  have hn : 0 < (s1 0 - s0 0) ^ 2 + (s1 1 - s0 1) ^ 2 := by
    by_contra hle
    apply h
    have h0 : (s1 0 - s0 0) ^ 2 = 0 := by nlinarith [sq_nonneg (s1 0 - s0 0), sq_nonneg (s1 1 - s0 1)]
    have h1 : (s1 1 - s0 1) ^ 2 = 0 := by nlinarith [sq_nonneg (s1 0 - s0 0), sq_nonneg (s1 1 - s0 1)]
    have h0' := pow_eq_zero_iff (two_ne_zero) |>.mp h0
    have h1' := pow_eq_zero_iff (two_ne_zero) |>.mp h1
    funext i
    fin_cases i
    · simp only [Fin.zero_eta]; linarith
    · simp only [Fin.mk_one]; linarith
  set L := (s1 0 - s0 0) ^ 2 + (s1 1 - s0 1) ^ 2 with hL
  set c := (s1 1 - s0 1) * (p 0 - s0 0) - (s1 0 - s0 0) * (p 1 - s0 1) with hc
  have hval : sqDistanceToFace2 p s0 s1 ^ 2 * sqDist s0 s1 = c ^ 2 / L := by
    have e1 : dot (![vsub s1 s0 1, -(vsub s1 s0 0)] : Vec 2 K) (vsub p s0) = c := by
      simp [dot2, vsub, hc]; ring
    have e2 : dot (![vsub s1 s0 1, -(vsub s1 s0 0)] : Vec 2 K) ![vsub s1 s0 1, -(vsub s1 s0 0)] = L := by
      simp [dot2, vsub, hL]; ring
    have e3 : sqDist s0 s1 = L := by simp [sqDist, Fin.sum_univ_two, hL]; ring
    simp only [sqDistanceToFace2, e1, e2, e3, sq_abs]
    field_simp
  rw [hval]
  have hne : L ≠ 0 := ne_of_gt hn
  -- Lagrange's identity on the parametrised line
  have hlag : ∀ t : K, (p 0 - (s0 0 + t * (s1 0 - s0 0))) ^ 2 + (p 1 - (s0 1 + t * (s1 1 - s0 1))) ^ 2 =
      c ^ 2 / L + (t * L - ((s1 0 - s0 0) * (p 0 - s0 0) + (s1 1 - s0 1) * (p 1 - s0 1))) ^ 2 / L := by
    intro t
    rw [← add_div, eq_div_iff hne, hc, hL]
    ring
  constructor
  · let t := ((s1 0 - s0 0) * (p 0 - s0 0) + (s1 1 - s0 1) * (p 1 - s0 1)) / L
    refine ⟨fun i => s0 i + t * (s1 i - s0 i), ⟨t, fun i => rfl⟩, ?_⟩
    simp only [sqDist, Fin.sum_univ_two]
    rw [hlag t]
    simp only [t]
    rw [div_mul_cancel₀ _ hne]
    simp
  · rintro x ⟨t, hx⟩
    simp only [sqDist, Fin.sum_univ_two, hx]
    rw [hlag t]
    have : 0 ≤ (t * L - ((s1 0 - s0 0) * (p 0 - s0 0) + (s1 1 - s0 1) * (p 1 - s0 1))) ^ 2 / L := by
      positivity
    linarith

/-- Normal vector of the plane of a face. -/
def normal3 (s0 s1 s2 : Vec 3 K) : Vec 3 K :=
  ![(s1 1 - s0 1) * (s2 2 - s0 2) - (s1 2 - s0 2) * (s2 1 - s0 1),
    (s1 2 - s0 2) * (s2 0 - s0 0) - (s1 0 - s0 0) * (s2 2 - s0 2),
    (s1 0 - s0 0) * (s2 1 - s0 1) - (s1 1 - s0 1) * (s2 0 - s0 0)]

set_option maxHeartbeats 2000000 in
/-- **C40 (partial, 3D).** The square of the result times the squared length of the normal vector
(twice the area of the face) is the squared distance. -/
theorem C40_face3_partial (p s0 s1 s2 : Vec 3 K) (h : normal3 s0 s1 s2 ≠ 0) :
    0 ≤ sqDistanceToFace3 p s0 s1 s2 ∧
      IsSqDist p (plane3 s0 s1 s2)
        (sqDistanceToFace3 p s0 s1 s2 ^ 2 * ∑ i, normal3 s0 s1 s2 i ^ 2) := by
  refine ⟨abs_nonneg _, ?_⟩
  set n := normal3 s0 s1 s2 with hndef
  have hn0 : n 0 = (s1 1 - s0 1) * (s2 2 - s0 2) - (s1 2 - s0 2) * (s2 1 - s0 1) := by
    simp [hndef, normal3]
  have hn1 : n 1 = (s1 2 - s0 2) * (s2 0 - s0 0) - (s1 0 - s0 0) * (s2 2 - s0 2) := by
    simp [hndef, normal3]
  have hn2 : n 2 = (s1 0 - s0 0) * (s2 1 - s0 1) - (s1 1 - s0 1) * (s2 0 - s0 0) := by
    simp [hndef, normal3]
  set L := ∑ i, n i ^ 2 with hL
  have hL' : L = n 0 ^ 2 + n 1 ^ 2 + n 2 ^ 2 := by rw [hL, Fin.sum_univ_three]
  have hpos : 0 < L := by
    by_contra hle
    apply h
    rw [hL'] at hle
    have a0 : n 0 ^ 2 = 0 := by nlinarith [sq_nonneg (n 0), sq_nonneg (n 1), sq_nonneg (n 2)]
    have a1 : n 1 ^ 2 = 0 := by nlinarith [sq_nonneg (n 0), sq_nonneg (n 1), sq_nonneg (n 2)]
    have a2 : n 2 ^ 2 = 0 := by nlinarith [sq_nonneg (n 0), sq_nonneg (n 1), sq_nonneg (n 2)]
    funext i
    fin_cases i
    · exact pow_eq_zero_iff (two_ne_zero) |>.mp a0
    · exact pow_eq_zero_iff (two_ne_zero) |>.mp a1
    · exact pow_eq_zero_iff (two_ne_zero) |>.mp a2
  have hne : L ≠ 0 := ne_of_gt hpos
  set c := n 0 * (p 0 - s0 0) + n 1 * (p 1 - s0 1) + n 2 * (p 2 - s0 2) with hc
  have hval : sqDistanceToFace3 p s0 s1 s2 ^ 2 * L = c ^ 2 / L := by
    have en : (![vsub s1 s0 1 * vsub s2 s0 2 - vsub s1 s0 2 * vsub s2 s0 1,
        vsub s1 s0 2 * vsub s2 s0 0 - vsub s1 s0 0 * vsub s2 s0 2,
        vsub s1 s0 0 * vsub s2 s0 1 - vsub s1 s0 1 * vsub s2 s0 0] : Vec 3 K) = n := by
      simp only [hndef, normal3, vsub]
      funext i
      fin_cases i <;> simp <;> ring
    have e1 : dot (vsub p s0) n = -c := by
      simp only [dot3, vsub, hc]; ring
    have e2 : dot n n = L := by rw [dot3, hL']; ring
    simp only [sqDistanceToFace3, en, e1, e2, sq_abs]
    field_simp
  rw [hval]
  -- the foot point of the perpendicular
  have hdist : ∀ x : Vec 3 K, sqDist p x = (p 0 - x 0) ^ 2 + (p 1 - x 1) ^ 2 + (p 2 - x 2) ^ 2 := by
    intro x; simp only [sqDist, Fin.sum_univ_three]
  have hplane : ∀ x ∈ plane3 s0 s1 s2,
      n 0 * (p 0 - x 0) + n 1 * (p 1 - x 1) + n 2 * (p 2 - x 2) = c := by
    rintro x ⟨t, u, hx⟩
    rw [hx 0, hx 1, hx 2, hc, hn0, hn1, hn2]
    ring
  constructor
  · -- coefficients of the foot point by Cramer's rule on the Gram system
    obtain ⟨q, hq⟩ : ∃ q, q * L = c := ⟨c / L, div_mul_cancel₀ _ hne⟩
    let r0 := p 0 - s0 0 - q * n 0
    let r1 := p 1 - s0 1 - q * n 1
    let r2 := p 2 - s0 2 - q * n 2
    let t := ((r1 * (s2 2 - s0 2) - r2 * (s2 1 - s0 1)) * n 0 + (r2 * (s2 0 - s0 0) - r0 * (s2 2 - s0 2)) * n 1
      + (r0 * (s2 1 - s0 1) - r1 * (s2 0 - s0 0)) * n 2) / L
    let u := (((s1 1 - s0 1) * r2 - (s1 2 - s0 2) * r1) * n 0 + ((s1 2 - s0 2) * r0 - (s1 0 - s0 0) * r2) * n 1
      + ((s1 0 - s0 0) * r1 - (s1 1 - s0 1) * r0) * n 2) / L
    have horth : r0 * n 0 + r1 * n 1 + r2 * n 2 = 0 := by
      simp only [r0, r1, r2]
      rw [hL', hc] at hq
      linear_combination (-1 : K) * hq
    have hr : ∀ i, (![r0, r1, r2] : Vec 3 K) i = t * (s1 i - s0 i) + u * (s2 i - s0 i) := by
      have k0 : L * r0 = (t * L) * (s1 0 - s0 0) + (u * L) * (s2 0 - s0 0) := by
        simp only [t, u, div_mul_cancel₀ _ hne]
        rw [hL']
        have := horth
        rw [hn0, hn1, hn2] at *
        linear_combination ((s1 1 - s0 1) * (s2 2 - s0 2) - (s1 2 - s0 2) * (s2 1 - s0 1)) * this
      have k1 : L * r1 = (t * L) * (s1 1 - s0 1) + (u * L) * (s2 1 - s0 1) := by
        simp only [t, u, div_mul_cancel₀ _ hne]
        rw [hL']
        have := horth
        rw [hn0, hn1, hn2] at *
        linear_combination ((s1 2 - s0 2) * (s2 0 - s0 0) - (s1 0 - s0 0) * (s2 2 - s0 2)) * this
      have k2 : L * r2 = (t * L) * (s1 2 - s0 2) + (u * L) * (s2 2 - s0 2) := by
        simp only [t, u, div_mul_cancel₀ _ hne]
        rw [hL']
        have := horth
        rw [hn0, hn1, hn2] at *
        linear_combination ((s1 0 - s0 0) * (s2 1 - s0 1) - (s1 1 - s0 1) * (s2 0 - s0 0)) * this
      intro i
      apply mul_left_cancel₀ hne
      fin_cases i
      · simp only [Fin.zero_eta, Matrix.cons_val_zero]; rw [k0]; ring
      · simp only [Fin.mk_one, Matrix.cons_val_one, Matrix.cons_val_zero]; rw [k1]; ring
      · simp only [Fin.reduceFinMk, Matrix.cons_val]; rw [k2]; ring
    refine ⟨fun i => s0 i + t * (s1 i - s0 i) + u * (s2 i - s0 i), ⟨t, u, fun i => rfl⟩, ?_⟩
    rw [hdist]
    have e0 := hr 0
    have e1 := hr 1
    have e2 := hr 2
    simp only [Matrix.cons_val_zero, Matrix.cons_val_one, Matrix.cons_val] at e0 e1 e2
    have f0 : p 0 - (s0 0 + t * (s1 0 - s0 0) + u * (s2 0 - s0 0)) = q * n 0 := by
      rw [add_assoc, ← e0]; simp only [r0]; ring
    have f1 : p 1 - (s0 1 + t * (s1 1 - s0 1) + u * (s2 1 - s0 1)) = q * n 1 := by
      rw [add_assoc, ← e1]; simp only [r1]; ring
    have f2 : p 2 - (s0 2 + t * (s1 2 - s0 2) + u * (s2 2 - s0 2)) = q * n 2 := by
      rw [add_assoc, ← e2]; simp only [r2]; ring
    rw [f0, f1, f2, eq_div_iff hne]
    calc ((q * n 0) ^ 2 + (q * n 1) ^ 2 + (q * n 2) ^ 2) * L
        = q ^ 2 * (n 0 ^ 2 + n 1 ^ 2 + n 2 ^ 2) * L := by ring
      _ = (q * L) ^ 2 := by rw [← hL']; ring
      _ = c ^ 2 := by rw [hq]
  · intro x hx
    rw [hdist, div_le_iff₀ hpos, ← hplane x hx, hL']
    nlinarith [sq_nonneg (n 0 * (p 1 - x 1) - n 1 * (p 0 - x 0)),
      sq_nonneg (n 0 * (p 2 - x 2) - n 2 * (p 0 - x 0)), sq_nonneg (n 1 * (p 2 - x 2) - n 2 * (p 1 - x 1))]

example : normal3 (![0, 0, 0] : Vec 3 ℚ) ![2, 0, 0] ![0, 2, 0] ≠ 0 := by
  intro h
  have := congrFun h 2
  revert this
  simp [normal3]

end Geom
end Verif
