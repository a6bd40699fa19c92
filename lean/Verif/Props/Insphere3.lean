import Verif.Lemmas.Insphere3Sign
import Verif.Props.Orient3

/-!
# The insphere test in space is exact (C95)
-/
namespace Verif
namespace FP

/-- With the constants that the constructor computes, the result of `insphere` has the sign of the exact determinant, for all points with
floating point coordinates. -/
theorem C95_insphere3d {p : Nat} (hp : 11 ≤ p) {k : Consts} (hk : Returns (init p) k) {a b c d e : ℚ × ℚ × ℚ} (ha : IsPoint3 p a)
    (hb : IsPoint3 p b) (hc : IsPoint3 p c) (hd : IsPoint3 p d) (he : IsPoint3 p e) :
    SignType.sign (insphere3 p k a b c d e) =
      SignType.sign (Geom.insphereDet3 ![a.1, a.2.1, a.2.2] ![b.1, b.2.1, b.2.2] ![c.1, c.2.1, c.2.2] ![d.1, d.2.1, d.2.2] ![e.1, e.2.1, e.2.2]) := by
  obtain ⟨k', h1, h2⟩ := consts_ok hp
  have : k = k' := hk.unique h1
  subst this
  rw [insphere3_sign hp h2 ha.rep hb.rep hc.rep hd.rep he.rep]
  rfl

/-- `inSphere` with floating point arithmetic decides as it does with exact arithmetic. -/
theorem C95_inSphere3d {p : Nat} (hp : 11 ≤ p) {k : Consts} (hk : Returns (init p) k) {a b c d e : ℚ × ℚ × ℚ} (ha : IsPoint3 p a)
    (hb : IsPoint3 p b) (hc : IsPoint3 p c) (hd : IsPoint3 p d) (he : IsPoint3 p e) :
    inSphereFl3 p k e a b c d =
      Geom.inSphere3 ![e.1, e.2.1, e.2.2] ![a.1, a.2.1, a.2.2] ![b.1, b.2.1, b.2.2] ![c.1, c.2.1, c.2.2] ![d.1, d.2.1, d.2.2] := by
  have h1 := C94_orient3d hp hk ha hb hc hd
  have h2 := C95_insphere3d hp hk ha hb hc hd he
  have h3 : SignType.sign (rnd p (orient3 p k a b c d * insphere3 p k a b c d e)) =
      SignType.sign (Geom.orient3 ![a.1, a.2.1, a.2.2] ![b.1, b.2.1, b.2.2] ![c.1, c.2.1, c.2.2] ![d.1, d.2.1, d.2.2] *
      Geom.insphereDet3 ![a.1, a.2.1, a.2.2] ![b.1, b.2.1, b.2.2] ![c.1, c.2.1, c.2.2] ![d.1, d.2.1, d.2.2] ![e.1, e.2.1, e.2.2]) := by
    rw [sign_rnd (by omega), sign_mul, sign_mul, h1, h2]
  unfold inSphereFl3 Geom.inSphere3
  have h4 := sign_nonneg_iff (a := rnd p (orient3 p k a b c d * insphere3 p k a b c d e))
  rw [h3, sign_nonneg_iff] at h4
  exact decide_eq_decide.mpr h4.symm

/-- Five points on or near a sphere with coordinates near `2 ^ 53`: the products of the coordinates need more than 250 digits. -/
example : ∃ k, Returns (init 53) k ∧
    SignType.sign (insphere3 53 k (2 ^ 53 - 1, 0, 0) (0, 2 ^ 53 - 1, 0) (-(2 ^ 53 - 1), 0, 0) (0, 0, 2 ^ 53 - 1) (0, 0, -(2 ^ 53 - 2))) = -1 ∧
    SignType.sign (insphere3 53 k (2 ^ 53 - 1, 0, 0) (0, 2 ^ 53 - 1, 0) (-(2 ^ 53 - 1), 0, 0) (0, 0, 2 ^ 53 - 1) (0, 0, -(2 ^ 53 - 1))) = 0 ∧
    inSphereFl3 53 k (0, 0, -(2 ^ 53 - 2)) (2 ^ 53 - 1, 0, 0) (0, 2 ^ 53 - 1, 0) (-(2 ^ 53 - 1), 0, 0) (0, 0, 2 ^ 53 - 1) = true := by
  obtain ⟨k, h, _⟩ := consts_ok (p := 53) (by norm_num)
  have f0 : IsFloat 53 0 := ⟨0, 0, by norm_num, by norm_num⟩
  have f1 : IsFloat 53 (2 ^ 53 - 1) := ⟨2 ^ 53 - 1, 0, by norm_num, by norm_num⟩
  have f2 : IsFloat 53 (-(2 ^ 53 - 1)) := ⟨-(2 ^ 53 - 1), 0, by norm_num, by norm_num⟩
  have f3 : IsFloat 53 (-(2 ^ 53 - 2)) := ⟨-(2 ^ 53 - 2), 0, by norm_num, by norm_num⟩
  refine ⟨k, h, ?_, ?_, ?_⟩
  · rw [C95_insphere3d (by norm_num) h ⟨f1, f0, f0⟩ ⟨f0, f1, f0⟩ ⟨f2, f0, f0⟩ ⟨f0, f0, f1⟩ ⟨f0, f0, f3⟩, sign_neg]
    norm_num [Geom.insphereDet3, Matrix.vecHead, Matrix.vecTail, Matrix.cons_val_two]
  · rw [C95_insphere3d (by norm_num) h ⟨f1, f0, f0⟩ ⟨f0, f1, f0⟩ ⟨f2, f0, f0⟩ ⟨f0, f0, f1⟩ ⟨f0, f0, f2⟩]
    norm_num [Geom.insphereDet3, Matrix.vecHead, Matrix.vecTail, Matrix.cons_val_two]
  · rw [C95_inSphere3d (by norm_num) h ⟨f1, f0, f0⟩ ⟨f0, f1, f0⟩ ⟨f2, f0, f0⟩ ⟨f0, f0, f1⟩ ⟨f0, f0, f3⟩]
    unfold Geom.inSphere3
    norm_num [Geom.insphereDet3, Geom.orient3, Matrix.vecHead, Matrix.vecTail, Matrix.cons_val_two]

end FP
end Verif
