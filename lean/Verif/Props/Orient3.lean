import Verif.Lemmas.Orient3
import Verif.Props.Orient2

/-!
# The orientation test in space is exact (C94)
-/
namespace Verif
namespace FP

/-- All coordinates are floating point numbers. -/
def IsPoint3 (p : Nat) (a : ℚ × ℚ × ℚ) : Prop := IsFloat p a.1 ∧ IsFloat p a.2.1 ∧ IsFloat p a.2.2

theorem IsPoint3.rep {p : Nat} {a : ℚ × ℚ × ℚ} (h : IsPoint3 p a) : Rep3 p a :=
  ⟨isFloat_iff.mp h.1, isFloat_iff.mp h.2.1, isFloat_iff.mp h.2.2⟩

/-- With the constants that the constructor computes, the result of `orient` has the sign of the exact determinant, for all points with
floating point coordinates. -/
theorem C94_orient3d {p : Nat} (hp : 11 ≤ p) {k : Consts} (hk : Returns (init p) k) {a b c d : ℚ × ℚ × ℚ} (ha : IsPoint3 p a)
    (hb : IsPoint3 p b) (hc : IsPoint3 p c) (hd : IsPoint3 p d) :
    SignType.sign (orient3 p k a b c d) =
      SignType.sign (Geom.orient3 ![a.1, a.2.1, a.2.2] ![b.1, b.2.1, b.2.2] ![c.1, c.2.1, c.2.2] ![d.1, d.2.1, d.2.2]) := by
  obtain ⟨k', h1, h2⟩ := consts_ok hp
  have : k = k' := hk.unique h1
  subst this
  rw [orient3_sign hp h2 ha.rep hb.rep hc.rep hd.rep]
  congr 1
  simp only [Geom.orient3, o3Det, Matrix.cons_val]
  ring

/-- Four points near a plane in double precision: the determinant is -2 although its terms are near `2 ^ 107`. -/
example : ∃ k, Returns (init 53) k ∧
    SignType.sign (orient3 53 k (2 ^ 53 - 1, 2 ^ 53 - 2, 5) (2 ^ 53 - 3, 2 ^ 53 - 4, 5) (0, 0, 4) (0, 0, 3)) = -1 ∧
    SignType.sign (orient3 53 k (2 ^ 53 - 1, 2 ^ 53 - 2, 5) (2 ^ 53 - 3, 2 ^ 53 - 4, 5) (0, 0, 3) (0, 0, 3)) = 0 := by
  obtain ⟨k, h, _⟩ := consts_ok (p := 53) (by norm_num)
  have f0 : IsFloat 53 0 := ⟨0, 0, by norm_num, by norm_num⟩
  have f3 : IsFloat 53 3 := ⟨3, 0, by norm_num, by norm_num⟩
  have f4 : IsFloat 53 4 := ⟨4, 0, by norm_num, by norm_num⟩
  have f5 : IsFloat 53 5 := ⟨5, 0, by norm_num, by norm_num⟩
  have g1 : IsFloat 53 (2 ^ 53 - 1) := ⟨2 ^ 53 - 1, 0, by norm_num, by norm_num⟩
  have g2 : IsFloat 53 (2 ^ 53 - 2) := ⟨2 ^ 53 - 2, 0, by norm_num, by norm_num⟩
  have g3 : IsFloat 53 (2 ^ 53 - 3) := ⟨2 ^ 53 - 3, 0, by norm_num, by norm_num⟩
  have g4 : IsFloat 53 (2 ^ 53 - 4) := ⟨2 ^ 53 - 4, 0, by norm_num, by norm_num⟩
  refine ⟨k, h, ?_, ?_⟩
  · rw [C94_orient3d (by norm_num) h ⟨g1, g2, f5⟩ ⟨g3, g4, f5⟩ ⟨f0, f0, f4⟩ ⟨f0, f0, f3⟩, sign_neg]
    norm_num [Geom.orient3, Matrix.vecHead, Matrix.vecTail, Matrix.cons_val_two]
  · rw [C94_orient3d (by norm_num) h ⟨g1, g2, f5⟩ ⟨g3, g4, f5⟩ ⟨f0, f0, f3⟩ ⟨f0, f0, f3⟩]
    norm_num [Geom.orient3, Matrix.cons_val]

end FP
end Verif
