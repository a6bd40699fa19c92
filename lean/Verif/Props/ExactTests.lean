import Verif.Model.ExactTests
import Verif.Props.Insphere2
import Verif.Props.Orient3
import Verif.Props.Insphere3
import Verif.Lemmas.Insphere3Exact

/-!
# The tests without filters are exact (C121)
-/
namespace Verif
namespace FP

private theorem fes2 {p : Nat} (hp : 11 ≤ p) {e f : List ℚ} {V W : ℚ} (he : Expn p V e) (hf : Expn p W f) : Expn p (V + W) (fes p e f) :=
  (fes_ok (show 5 ≤ p by omega) he hf).toExpn

private theorem dif {p : Nat} (hp : 11 ≤ p) {a b c d : ℚ} (ha : Rep p a) (hb : Rep p b) (hc : Rep p c) (hd : Rep p d) :
    Expn p (a * b - c * d) (diff4 p (2 ^ half p + 1) a b c d) :=
  (diff4_ok (show 4 ≤ p by omega) ha hb hc hd).expn (by omega)

private theorem scl {p : Nat} (hp : 11 ≤ p) {e : List ℚ} {V b : ℚ} (he : Expn p V e) (hb : Rep p b) :
    Expn p (V * b) (scale p (2 ^ half p + 1) e b) := (scale_ok hp he hb).toExpn

/-- The value of `raw2`. -/
private def cr2 (a b : ℚ × ℚ) : ℚ := a.1 * b.2 - b.1 * a.2

private structure MinorsOk (p : Nat) (m : Minors) (a b c d : ℚ × ℚ) : Prop where
  bcd : Expn p (cr2 b c + cr2 c d - cr2 b d) m.bcd
  cda : Expn p (cr2 c d + cr2 d a + cr2 a c) m.cda
  dab : Expn p (cr2 d a + cr2 a b + cr2 b d) m.dab
  abc : Expn p (cr2 a b + cr2 b c - cr2 a c) m.abc

private theorem minors_ok {p : Nat} (hp : 11 ≤ p) {a b c d : ℚ × ℚ} (ha : Rep p a.1 ∧ Rep p a.2) (hb : Rep p b.1 ∧ Rep p b.2)
    (hc : Rep p c.1 ∧ Rep p c.2) (hd : Rep p d.1 ∧ Rep p d.2) : MinorsOk p (minors p (2 ^ half p + 1) a b c d) a b c d := by
  have r : ∀ {u v : ℚ × ℚ}, Rep p u.1 ∧ Rep p u.2 → Rep p v.1 ∧ Rep p v.2 → Expn p (cr2 u v) (raw2 p (2 ^ half p + 1) u v) :=
    fun hu hv => dif hp hu.1 hv.2 hv.1 hu.2
  exact ⟨(fes2 hp (fes2 hp (r hb hc) (r hc hd)) (r hb hd).neg).cast (by ring), fes2 hp (fes2 hp (r hc hd) (r hd ha)) (r ha hc),
    fes2 hp (fes2 hp (r hd ha) (r ha hb)) (r hb hd), (fes2 hp (fes2 hp (r ha hb) (r hb hc)) (r ha hc).neg).cast (by ring)⟩

private theorem lift_ok {p : Nat} (hp : 11 ≤ p) {e : List ℚ} {V s : ℚ} {a : ℚ × ℚ} (he : Expn p V e) (ha : Rep p a.1 ∧ Rep p a.2)
    (hs : s = 1 ∨ s = -1) : Expn p (V * (s * (a.1 * a.1 + a.2 * a.2))) (exactLift p (2 ^ half p + 1) e s a) := by
  have hr : ∀ {x : ℚ}, Rep p x → Rep p (s * x) := by
    intro x hx
    rcases hs with rfl | rfl
    · rwa [one_mul]
    · rw [neg_one_mul]; exact hx.neg
  exact (fes2 hp (scl hp (scl hp he ha.1) (hr ha.1)) (scl hp (scl hp he ha.2) (hr ha.2))).cast (by ring)

private theorem IsPoint2.rep2 {p : Nat} {a : ℚ × ℚ} (h : IsPoint2 p a) : Rep p a.1 ∧ Rep p a.2 :=
  ⟨isFloat_iff.mp h.1, isFloat_iff.mp h.2⟩

/-- **C121**, plane, orientation: the components are floating point numbers with the determinant as sum, and the returned last one has
its sign. -/
theorem C121_orient2d {p : Nat} (hp : 11 ≤ p) {k : Consts} (hk : Returns (init p) k) {a b c : ℚ × ℚ} (ha : IsPoint2 p a)
    (hb : IsPoint2 p b) (hc : IsPoint2 p c) :
    (exactOrient2 p k.splitter a b c).sum = Geom.orient2 ![a.1, a.2] ![b.1, b.2] ![c.1, c.2] ∧
    (∀ x ∈ exactOrient2 p k.splitter a b c, IsFloat p x) ∧
    SignType.sign ((exactOrient2 p k.splitter a b c).getLastD 0) = SignType.sign (Geom.orient2 ![a.1, a.2] ![b.1, b.2] ![c.1, c.2]) := by
  obtain ⟨k', h1, h2⟩ := consts_ok hp
  obtain rfl : k = k' := hk.unique h1
  rw [h2.splitter]
  have h := fes_ok (show 5 ≤ p by omega)
    (fes2 hp (dif hp ha.rep2.1 hb.rep2.2 ha.rep2.1 hc.rep2.2) (dif hp hb.rep2.1 hc.rep2.2 hb.rep2.1 ha.rep2.2))
    (dif hp hc.rep2.1 ha.rep2.2 hc.rep2.1 hb.rep2.2)
  have hv : a.1 * b.2 - a.1 * c.2 + (b.1 * c.2 - b.1 * a.2) + (c.1 * a.2 - c.1 * b.2) =
      Geom.orient2 ![a.1, a.2] ![b.1, b.2] ![c.1, c.2] := by
    simp [Geom.orient2]; ring
  rw [hv] at h
  exact ⟨h.sum, fun x hx => isFloat_iff.mpr (h.rep x hx), h.sign⟩

/-- **C121**, space, orientation. -/
theorem C121_orient3d {p : Nat} (hp : 11 ≤ p) {k : Consts} (hk : Returns (init p) k) {a b c d : ℚ × ℚ × ℚ} (ha : IsPoint3 p a)
    (hb : IsPoint3 p b) (hc : IsPoint3 p c) (hd : IsPoint3 p d) :
    (exactOrient3 p k.splitter a b c d).sum =
      Geom.orient3 ![a.1, a.2.1, a.2.2] ![b.1, b.2.1, b.2.2] ![c.1, c.2.1, c.2.2] ![d.1, d.2.1, d.2.2] ∧
    (∀ x ∈ exactOrient3 p k.splitter a b c d, IsFloat p x) ∧
    SignType.sign ((exactOrient3 p k.splitter a b c d).getLastD 0) =
      SignType.sign (Geom.orient3 ![a.1, a.2.1, a.2.2] ![b.1, b.2.1, b.2.2] ![c.1, c.2.1, c.2.2] ![d.1, d.2.1, d.2.2]) := by
  obtain ⟨k', h1, h2⟩ := consts_ok hp
  obtain rfl : k = k' := hk.unique h1
  rw [h2.splitter]
  have m := minors_ok hp (a := (a.1, a.2.1)) (b := (b.1, b.2.1)) (c := (c.1, c.2.1)) (d := (d.1, d.2.1))
    ⟨ha.rep.x, ha.rep.y⟩ ⟨hb.rep.x, hb.rep.y⟩ ⟨hc.rep.x, hc.rep.y⟩ ⟨hd.rep.x, hd.rep.y⟩
  have h := fes_ok (show 5 ≤ p by omega) (fes2 hp (scl hp m.bcd ha.rep.z) (scl hp m.cda hb.rep.z.neg))
    (fes2 hp (scl hp m.dab hc.rep.z) (scl hp m.abc hd.rep.z.neg))
  have hv : (cr2 (b.1, b.2.1) (c.1, c.2.1) + cr2 (c.1, c.2.1) (d.1, d.2.1) - cr2 (b.1, b.2.1) (d.1, d.2.1)) * a.2.2 +
      (cr2 (c.1, c.2.1) (d.1, d.2.1) + cr2 (d.1, d.2.1) (a.1, a.2.1) + cr2 (a.1, a.2.1) (c.1, c.2.1)) * -b.2.2 +
      ((cr2 (d.1, d.2.1) (a.1, a.2.1) + cr2 (a.1, a.2.1) (b.1, b.2.1) + cr2 (b.1, b.2.1) (d.1, d.2.1)) * c.2.2 +
      (cr2 (a.1, a.2.1) (b.1, b.2.1) + cr2 (b.1, b.2.1) (c.1, c.2.1) - cr2 (a.1, a.2.1) (c.1, c.2.1)) * -d.2.2) =
      Geom.orient3 ![a.1, a.2.1, a.2.2] ![b.1, b.2.1, b.2.2] ![c.1, c.2.1, c.2.2] ![d.1, d.2.1, d.2.2] := by
    simp only [Geom.orient3, cr2, Matrix.cons_val]; ring
  rw [hv] at h
  exact ⟨h.sum, fun x hx => isFloat_iff.mpr (h.rep x hx), h.sign⟩

/-- **C121**, plane, incircle test. -/
theorem C121_insphere2d {p : Nat} (hp : 11 ≤ p) {k : Consts} (hk : Returns (init p) k) {a b c d : ℚ × ℚ} (ha : IsPoint2 p a)
    (hb : IsPoint2 p b) (hc : IsPoint2 p c) (hd : IsPoint2 p d) :
    (exactInsphere2 p k.splitter a b c d).sum = Geom.insphereDet2 ![a.1, a.2] ![b.1, b.2] ![c.1, c.2] ![d.1, d.2] ∧
    (∀ x ∈ exactInsphere2 p k.splitter a b c d, IsFloat p x) ∧
    SignType.sign ((exactInsphere2 p k.splitter a b c d).getLastD 0) =
      SignType.sign (Geom.insphereDet2 ![a.1, a.2] ![b.1, b.2] ![c.1, c.2] ![d.1, d.2]) := by
  obtain ⟨k', h1, h2⟩ := consts_ok hp
  obtain rfl : k = k' := hk.unique h1
  rw [h2.splitter]
  have m := minors_ok hp ha.rep2 hb.rep2 hc.rep2 hd.rep2
  have h := fes_ok (show 5 ≤ p by omega) (fes2 hp (lift_ok hp m.bcd ha.rep2 (.inl rfl)) (lift_ok hp m.cda hb.rep2 (.inr rfl)))
    (fes2 hp (lift_ok hp m.dab hc.rep2 (.inl rfl)) (lift_ok hp m.abc hd.rep2 (.inr rfl)))
  have hv : (cr2 b c + cr2 c d - cr2 b d) * (1 * (a.1 * a.1 + a.2 * a.2)) + (cr2 c d + cr2 d a + cr2 a c) * (-1 * (b.1 * b.1 + b.2 * b.2)) +
      ((cr2 d a + cr2 a b + cr2 b d) * (1 * (c.1 * c.1 + c.2 * c.2)) + (cr2 a b + cr2 b c - cr2 a c) * (-1 * (d.1 * d.1 + d.2 * d.2))) =
      Geom.insphereDet2 ![a.1, a.2] ![b.1, b.2] ![c.1, c.2] ![d.1, d.2] := by
    simp only [Geom.insphereDet2, cr2, Matrix.cons_val_zero, Matrix.cons_val_one]; ring
  rw [hv] at h
  exact ⟨h.sum, fun x hx => isFloat_iff.mpr (h.rep x hx), h.sign⟩

/-- **C121**, space, insphere test. -/
theorem C121_insphere3d {p : Nat} (hp : 11 ≤ p) {k : Consts} (hk : Returns (init p) k) {a b c d e : ℚ × ℚ × ℚ} (ha : IsPoint3 p a)
    (hb : IsPoint3 p b) (hc : IsPoint3 p c) (hd : IsPoint3 p d) (he : IsPoint3 p e) :
    (exact3 p k.splitter a b c d e).sum =
      Geom.insphereDet3 ![a.1, a.2.1, a.2.2] ![b.1, b.2.1, b.2.2] ![c.1, c.2.1, c.2.2] ![d.1, d.2.1, d.2.2] ![e.1, e.2.1, e.2.2] ∧
    (∀ x ∈ exact3 p k.splitter a b c d e, IsFloat p x) ∧
    SignType.sign ((exact3 p k.splitter a b c d e).getLastD 0) = SignType.sign
      (Geom.insphereDet3 ![a.1, a.2.1, a.2.2] ![b.1, b.2.1, b.2.2] ![c.1, c.2.1, c.2.2] ![d.1, d.2.1, d.2.2] ![e.1, e.2.1, e.2.2]) := by
  obtain ⟨k', h1, h2⟩ := consts_ok hp
  obtain rfl : k = k' := hk.unique h1
  rw [h2.splitter]
  have h := exact3_ok hp ha.rep hb.rep hc.rep hd.rep he.rep
  exact ⟨h.sum, fun x hx => isFloat_iff.mpr (h.rep x hx), h.sign⟩

/-- The same points as for the adaptive tests. -/
example : ∃ k, Returns (init 53) k ∧
    SignType.sign ((exactOrient2 53 k.splitter (0, 0) (2 ^ 53 - 1, 2 ^ 53 - 2) (2 ^ 53 - 3, 2 ^ 53 - 4)).getLastD 0) = -1 ∧
    SignType.sign ((exactInsphere2 53 k.splitter (2 ^ 53 - 1, 0) (0, 2 ^ 53 - 1) (-(2 ^ 53 - 1), 0) (0, -(2 ^ 53 - 2))).getLastD 0) = 1 ∧
    SignType.sign ((exactOrient3 53 k.splitter (2 ^ 53 - 1, 2 ^ 53 - 2, 5) (2 ^ 53 - 3, 2 ^ 53 - 4, 5) (0, 0, 4) (0, 0, 3)).getLastD 0) = -1 ∧
    SignType.sign ((exact3 53 k.splitter (2 ^ 53 - 1, 0, 0) (0, 2 ^ 53 - 1, 0) (-(2 ^ 53 - 1), 0, 0) (0, 0, 2 ^ 53 - 1)
      (0, 0, -(2 ^ 53 - 2))).getLastD 0) = -1 := by
  obtain ⟨k, h, _⟩ := consts_ok (p := 53) (by norm_num)
  have f0 : IsFloat 53 0 := ⟨0, 0, by norm_num, by norm_num⟩
  have f3 : IsFloat 53 3 := ⟨3, 0, by norm_num, by norm_num⟩
  have f4 : IsFloat 53 4 := ⟨4, 0, by norm_num, by norm_num⟩
  have f5 : IsFloat 53 5 := ⟨5, 0, by norm_num, by norm_num⟩
  have g1 : IsFloat 53 (2 ^ 53 - 1) := ⟨2 ^ 53 - 1, 0, by norm_num, by norm_num⟩
  have g2 : IsFloat 53 (2 ^ 53 - 2) := ⟨2 ^ 53 - 2, 0, by norm_num, by norm_num⟩
  have g3 : IsFloat 53 (2 ^ 53 - 3) := ⟨2 ^ 53 - 3, 0, by norm_num, by norm_num⟩
  have g4 : IsFloat 53 (2 ^ 53 - 4) := ⟨2 ^ 53 - 4, 0, by norm_num, by norm_num⟩
  have n1 : IsFloat 53 (-(2 ^ 53 - 1)) := ⟨-(2 ^ 53 - 1), 0, by norm_num, by norm_num⟩
  have n2 : IsFloat 53 (-(2 ^ 53 - 2)) := ⟨-(2 ^ 53 - 2), 0, by norm_num, by norm_num⟩
  refine ⟨k, h, ?_, ?_, ?_, ?_⟩
  · rw [(C121_orient2d (by norm_num) h ⟨f0, f0⟩ ⟨g1, g2⟩ ⟨g3, g4⟩).2.2, sign_neg]
    norm_num [Geom.orient2]
  · rw [(C121_insphere2d (by norm_num) h ⟨g1, f0⟩ ⟨f0, g1⟩ ⟨n1, f0⟩ ⟨f0, n2⟩).2.2, sign_pos]
    norm_num [Geom.insphereDet2]
  · rw [(C121_orient3d (by norm_num) h ⟨g1, g2, f5⟩ ⟨g3, g4, f5⟩ ⟨f0, f0, f4⟩ ⟨f0, f0, f3⟩).2.2, sign_neg]
    norm_num [Geom.orient3, Matrix.vecHead, Matrix.vecTail, Matrix.cons_val_two]
  · rw [(C121_insphere3d (by norm_num) h ⟨g1, f0, f0⟩ ⟨f0, g1, f0⟩ ⟨n1, f0, f0⟩ ⟨f0, f0, g1⟩ ⟨f0, f0, n2⟩).2.2, sign_neg]
    norm_num [Geom.insphereDet3, Matrix.vecHead, Matrix.vecTail, Matrix.cons_val_two]

end FP
end Verif
