import Verif.Lemmas.Orient2
import Verif.Props.EFT
import Verif.Model.GeomCore
import Mathlib.Data.Fin.VecNotation

/-!
# The orientation test in the plane is exact (C91)
-/
namespace Verif
namespace FP

/-- Both coordinates are floating point numbers. -/
def IsPoint2 (p : Nat) (a : ℚ × ℚ) : Prop := IsFloat p a.1 ∧ IsFloat p a.2

theorem consts_ok {p : Nat} (hp : 11 ≤ p) : ∃ c : Consts, Returns (init p) c ∧ ConstsOk p c := by
  obtain ⟨c, h, h0, h1, h2, h3, h4, h5, h6, h7, h8, h9, h10, h11, h12, h13, h14⟩ := C89_constants hp
  have e : c.epsilon = eps p := h0
  rw [e] at h2 h3 h4 h5 h6 h7 h8 h9 h10 h11 h12 h13 h14
  exact ⟨c, h, h1, h2, h3, h4, h5, h6, h7, h8, h9, h10, h11, h12, h13, h14⟩

/-- With the constants that the constructor computes, the result of `orient` has the sign of the exact determinant, for all points with
floating point coordinates. -/
theorem C91_orient2d {p : Nat} (hp : 11 ≤ p) {c : Consts} (hc : Returns (init p) c) {a b d : ℚ × ℚ} (ha : IsPoint2 p a) (hb : IsPoint2 p b)
    (hd : IsPoint2 p d) :
    SignType.sign (orient2 p c a b d) = SignType.sign (Geom.orient2 ![a.1, a.2] ![b.1, b.2] ![d.1, d.2]) := by
  obtain ⟨c', h1, h2⟩ := consts_ok hp
  have : c = c' := hc.unique h1
  subst this
  have := orient2_sign hp h2 (isFloat_iff.mp ha.1) (isFloat_iff.mp ha.2) (isFloat_iff.mp hb.1) (isFloat_iff.mp hb.2) (isFloat_iff.mp hd.1)
    (isFloat_iff.mp hd.2)
  rw [this]
  simp [Geom.orient2]

/-- Three points on a line whose distances differ by a factor near `2 ^ 53`: the last two bits decide. -/
example : ∃ c, Returns (init 53) c ∧ SignType.sign (orient2 53 c (0, 0) (2 ^ 53 - 1, 2 ^ 53 - 2) (2 ^ 53 - 3, 2 ^ 53 - 4)) = -1 := by
  obtain ⟨c, h, _⟩ := consts_ok (p := 53) (by norm_num)
  refine ⟨c, h, ?_⟩
  rw [C91_orient2d (by norm_num) h ⟨⟨0, 0, by norm_num, by norm_num⟩, ⟨0, 0, by norm_num, by norm_num⟩⟩
    ⟨⟨2 ^ 53 - 1, 0, by norm_num, by norm_num⟩, ⟨2 ^ 53 - 2, 0, by norm_num, by norm_num⟩⟩
    ⟨⟨2 ^ 53 - 3, 0, by norm_num, by norm_num⟩, ⟨2 ^ 53 - 4, 0, by norm_num, by norm_num⟩⟩]
  rw [sign_neg]
  norm_num [Geom.orient2]

end FP
end Verif
