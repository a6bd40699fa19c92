import Verif.Lemmas.Insphere2
import Verif.Props.Orient2

/-!
# The incircle test is exact (C93)
-/
namespace Verif
namespace FP

/-- With the constants that the constructor computes, the result of `insphere` has the sign of the exact determinant, for all points with
floating point coordinates. -/
theorem C93_insphere2d {p : Nat} (hp : 11 ≤ p) {k : Consts} (hk : Returns (init p) k) {a b c d : ℚ × ℚ} (ha : IsPoint2 p a) (hb : IsPoint2 p b)
    (hc : IsPoint2 p c) (hd : IsPoint2 p d) :
    SignType.sign (insphere2 p k a b c d) =
      SignType.sign (Geom.insphereDet2 ![a.1, a.2] ![b.1, b.2] ![c.1, c.2] ![d.1, d.2]) := by
  obtain ⟨k', h1, h2⟩ := consts_ok hp
  have : k = k' := hk.unique h1
  subst this
  have := insphere2_sign hp h2 (isFloat_iff.mp ha.1) (isFloat_iff.mp ha.2) (isFloat_iff.mp hb.1) (isFloat_iff.mp hb.2) (isFloat_iff.mp hc.1)
    (isFloat_iff.mp hc.2) (isFloat_iff.mp hd.1) (isFloat_iff.mp hd.2)
  rw [this]
  simp [Geom.insphereDet2, icDet]

/-- `inSphere` with floating point arithmetic decides as it does with exact arithmetic. -/
theorem C93_inSphere2d {p : Nat} (hp : 11 ≤ p) {k : Consts} (hk : Returns (init p) k) {a b c d : ℚ × ℚ} (ha : IsPoint2 p a) (hb : IsPoint2 p b)
    (hc : IsPoint2 p c) (hd : IsPoint2 p d) :
    inSphereFl2 p k d a b c = Geom.inSphere2 ![d.1, d.2] ![a.1, a.2] ![b.1, b.2] ![c.1, c.2] := by
  have h1 := C91_orient2d hp hk ha hb hc
  have h2 := C93_insphere2d hp hk ha hb hc hd
  have h3 : SignType.sign (rnd p (orient2 p k a b c * insphere2 p k a b c d)) = SignType.sign (Geom.orient2 ![a.1, a.2] ![b.1, b.2] ![c.1, c.2] *
      Geom.insphereDet2 ![a.1, a.2] ![b.1, b.2] ![c.1, c.2] ![d.1, d.2]) := by
    rw [sign_rnd (by omega), sign_mul, sign_mul, h1, h2]
  unfold inSphereFl2 Geom.inSphere2
  have h4 := sign_nonneg_iff (a := rnd p (orient2 p k a b c * insphere2 p k a b c d))
  rw [h3, sign_nonneg_iff] at h4
  exact decide_eq_decide.mpr h4.symm

/-- Four points near a circle with coordinates near `2 ^ 53`: the product of the coordinates needs more than 200 digits, the last ones
decide. -/
example : ∃ k, Returns (init 53) k ∧ SignType.sign (insphere2 53 k (2 ^ 53 - 1, 0) (0, 2 ^ 53 - 1) (-(2 ^ 53 - 1), 0) (0, -(2 ^ 53 - 2))) = 1 ∧
    SignType.sign (insphere2 53 k (2 ^ 53 - 1, 0) (0, 2 ^ 53 - 1) (-(2 ^ 53 - 1), 0) (0, -(2 ^ 53 - 1))) = 0 := by
  obtain ⟨k, h, _⟩ := consts_ok (p := 53) (by norm_num)
  have f0 : IsFloat 53 0 := ⟨0, 0, by norm_num, by norm_num⟩
  have f1 : IsFloat 53 (2 ^ 53 - 1) := ⟨2 ^ 53 - 1, 0, by norm_num, by norm_num⟩
  have f2 : IsFloat 53 (-(2 ^ 53 - 1)) := ⟨-(2 ^ 53 - 1), 0, by norm_num, by norm_num⟩
  have f3 : IsFloat 53 (-(2 ^ 53 - 2)) := ⟨-(2 ^ 53 - 2), 0, by norm_num, by norm_num⟩
  refine ⟨k, h, ?_, ?_⟩
  · rw [C93_insphere2d (by norm_num) h ⟨f1, f0⟩ ⟨f0, f1⟩ ⟨f2, f0⟩ ⟨f0, f3⟩, sign_pos]
    norm_num [Geom.insphereDet2]
  · rw [C93_insphere2d (by norm_num) h ⟨f1, f0⟩ ⟨f0, f1⟩ ⟨f2, f0⟩ ⟨f0, f2⟩]
    norm_num [Geom.insphereDet2]

end FP
end Verif
