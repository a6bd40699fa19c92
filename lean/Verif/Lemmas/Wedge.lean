import Verif.Lemmas.Tight
import Verif.Lemmas.Insphere3Exact

/-!
# The terms of the insphere determinant

The determinant has four terms, one for each point: the squared length of the point times the volume of the other three. The volume is the sum
of three numbers, here called wedges: a coordinate times the cross product of two vectors in the plane.
-/
namespace Verif
namespace FP

/-- The coordinates relative to the last point, and what the roundings left. -/
structure Sd (p : Nat) (a : Side3) : Prop extends Side3Ok p a (a.x + a.xt) (a.y + a.yt) (a.z + a.zt) where
  qx : rnd p (a.x + a.xt) = a.x
  qy : rnd p (a.y + a.yt) = a.y
  qz : rnd p (a.z + a.zt) = a.z

theorem side3_sd {p : Nat} (hp : 2 ≤ p) {pa pe : ℚ × ℚ × ℚ} (ra : Rep3 p pa) (re : Rep3 p pe) : Sd p (side3 p pa pe) := by
  have h := side3_ok hp ra.x ra.y ra.z re.x re.y re.z
  have h' := h
  rw [h.eX, h.eY, h.eZ] at h'
  exact ⟨h', by rw [← h.eX]; rfl, by rw [← h.eY]; rfl, by rw [← h.eZ]; rfl⟩

/-- A coordinate with its tail, two vectors, and the largest component of their cross product. -/
structure Wedge where
  z : ℚ
  zt : ℚ
  c : ℚ
  u : Side3
  v : Side3

namespace Wedge

/-- Cross product of the rounded vectors. -/
def k0 (w : Wedge) : ℚ := w.u.x * w.v.y - w.v.x * w.u.y

/-- Its terms of first order. -/
def k1 (w : Wedge) : ℚ := (w.u.x * w.v.yt + w.v.y * w.u.xt) - (w.u.y * w.v.xt + w.v.x * w.u.yt)

/-- The exact number. -/
def W (w : Wedge) : ℚ := (w.z + w.zt) * ((w.u.x + w.u.xt) * (w.v.y + w.v.yt) - (w.v.x + w.v.xt) * (w.u.y + w.u.yt))

/-- The same of the rounded vectors. -/
def W0 (w : Wedge) : ℚ := w.z * w.k0

/-- Magnitude of the cross product. -/
def mc (w : Wedge) : ℚ := |w.u.x * w.v.y| + |w.v.x * w.u.y|

/-- Magnitude. -/
def m (w : Wedge) : ℚ := |w.z| * w.mc

/-- Magnitude of the rounded products. -/
def mr (p : Nat) (w : Wedge) : ℚ := |w.z| * (|rnd p (w.u.x * w.v.y)| + |rnd p (w.v.x * w.u.y)|)

/-- The computed magnitude. -/
def R (p : Nat) (w : Wedge) : ℚ := rnd p (rnd p (|rnd p (w.u.x * w.v.y)| + |rnd p (w.v.x * w.u.y)|) * |w.z|)

/-- The computed cross product. -/
def fl (p : Nat) (w : Wedge) : ℚ := rnd p (rnd p (w.u.x * w.v.y) - rnd p (w.v.x * w.u.y))

/-- A number close to the cross product and to its largest component. -/
def st (w : Wedge) : ℚ := w.k0 + (w.c - w.k0) / 3

structure Ok (p : Nat) (w : Wedge) : Prop where
  u : Sd p w.u
  v : Sd p w.v
  bz : |w.zt| ≤ eps p * |w.z|
  qz : rnd p (w.z + w.zt) = w.z
  c : |w.c - w.k0| ≤ 3 / 2 * eps p * (1 + 2 * eps p) * w.mc

theorem mc_nonneg (w : Wedge) : 0 ≤ w.mc := by unfold mc; positivity

theorem m_nonneg (w : Wedge) : 0 ≤ w.m := mul_nonneg (abs_nonneg _) w.mc_nonneg

theorem mr_nonneg (p : Nat) (w : Wedge) : 0 ≤ w.mr p := by unfold mr; positivity

theorem R_nonneg {p : Nat} (hp : 0 < p) (w : Wedge) : 0 ≤ w.R p :=
  rnd_nonneg hp (mul_nonneg (rnd_nonneg hp (by positivity)) (abs_nonneg _))

theorem abs_k0 (w : Wedge) : |w.k0| ≤ w.mc := abs_sub _ _

theorem abs_W0 (w : Wedge) : |w.W0| ≤ w.m := by
  unfold W0 m; rw [abs_mul]; exact mul_le_mul_of_nonneg_left w.abs_k0 (abs_nonneg _)

theorem mr_le {p : Nat} (hp : 0 < p) (w : Wedge) : w.mr p ≤ (1 + eps p) ^ 2 * w.R p := perm_term hp (abs_nonneg _)

theorem m_le {p : Nat} (hp : 0 < p) (w : Wedge) : w.m ≤ (1 + eps p) * w.mr p := by
  have h2 := abs_le_rnd_mul hp (w.u.x * w.v.y)
  have h3 := abs_le_rnd_mul hp (w.v.x * w.u.y)
  have := mul_le_mul_of_nonneg_left (add_le_add h2 h3) (abs_nonneg w.z)
  unfold m mc mr
  linarith

theorem Ok.appr {p : Nat} (hp : 0 < p) {w : Wedge} (h : w.Ok p) :
    Appr p w.W (w.z * (rnd p (w.u.x * w.v.y) - rnd p (w.v.x * w.u.y))) (w.mr p) 4 :=
  ((Appr.of_tail h.bz).mul ((appr_prod hp h.u.apx h.v.apy).sub (appr_prod hp h.v.apx h.u.apy))).cast rfl rfl rfl (by simp)

theorem fl_appr (p : Nat) (w : Wedge) :
    Appr p (w.fl p) (rnd p (w.u.x * w.v.y) - rnd p (w.v.x * w.u.y)) (|rnd p (w.u.x * w.v.y)| + |rnd p (w.v.x * w.u.y)|) 1 :=
  ((Appr.refl p _).sub (Appr.refl p _)).rnd

theorem Ok.eps_appr {p : Nat} {w : Wedge} (h : w.Ok p) : Appr p (epsFl p w.u w.v) w.k1 (2 * eps p * w.mc) 3 := by
  have M := fun x y : ℚ => ((Appr.refl p x).mul (Appr.refl p y)).rnd
  have k1 := (((M w.u.x w.v.yt).add (M w.v.y w.u.xt)).rnd.sub ((M w.u.y w.v.xt).add (M w.v.x w.u.yt)).rnd).rnd
  simp only [← abs_mul] at k1
  exact (k1.weaken (cross1_le h.u.toSideOk h.v.toSideOk)).cast rfl rfl rfl (by simp)

theorem Ok.st_err {p : Nat} {w : Wedge} (h : w.Ok p) : |w.k0 - w.st| ≤ eps p * (1 + 2 * eps p) / 2 * w.mc := by
  have e : w.k0 - w.st = -((w.c - w.k0) / 3) := by unfold st; ring
  rw [e, abs_neg, abs_div]
  have := h.c
  rw [div_le_iff₀ (by norm_num)]
  norm_num
  linarith

theorem Ok.c_appr {p : Nat} (hp : 11 ≤ p) {w : Wedge} (h : w.Ok p) : Appr p w.c w.st ((1 + 2 * eps p) * w.mc) 1 := by
  have he := eps_pos p
  have he' := eps_le hp
  constructor
  · have e : w.c - w.st = (w.c - w.k0) * (2 / 3) := by unfold st; ring
    rw [e, abs_mul, abs_of_nonneg (show (0 : ℚ) ≤ 2 / 3 by norm_num), pow_one]
    linarith [h.c]
  · have h1 := h.st_err
    have h2 := w.abs_k0
    have h3 := abs_sub w.k0 (w.k0 - w.st)
    rw [sub_sub_cancel] at h3
    have h4 : eps p * (1 + 2 * eps p) / 2 * w.mc ≤ 2 * eps p * w.mc := mul_le_mul_of_nonneg_right (by nlinarith) w.mc_nonneg
    linarith

/-- Second filter: one coordinate of the squared length. -/
theorem Ok.tight {p : Nat} (hp : 11 ≤ p) {w : Wedge} (h : w.Ok p) {g s : ℚ} (hg : rnd p (g + s) = g) :
    |(g + s) * (g + s) * w.W - (1 + 10 * eps p ^ 2) * (g * g * w.W0)| ≤
      (5 * eps p + 5 * eps p ^ 2 + 120 * eps p ^ 3) * (1 + eps p) * (rnd p (g * g) * w.R p) := by
  have hp0 : 0 < p := by omega
  have he := eps_pos p
  obtain ⟨a, a0, a1, a2, -, a4⟩ := fac_prod hp0 hg hg
  obtain ⟨c, c0, c1, c2, c3⟩ := fac_mul hp0 h.qz
  obtain ⟨d, d0, d1, d2, d3, d4⟩ := fac_prod hp0 h.u.qx h.v.qy
  obtain ⟨f, f0, f1, f2, f3, f4⟩ := fac_prod hp0 h.v.qx h.u.qy
  have gg : 0 ≤ rnd p (g * g) := rnd_nonneg hp0 (mul_self_nonneg _)
  rw [abs_mul_self, abs_of_nonneg gg] at a4
  have m1 := mono_tight hp ⟨a0, a1⟩ ⟨c0, c1⟩ ⟨d0, d1⟩ a2 c2 d2 d3 a4 d4
  have m2 := mono_tight hp ⟨a0, a1⟩ ⟨c0, c1⟩ ⟨f0, f1⟩ a2 c2 f2 f3 a4 f4
  have e : (g + s) * (g + s) * w.W - (1 + 10 * eps p ^ 2) * (g * g * w.W0) =
    ((g + s) * (g + s) * (w.z + w.zt) * ((w.u.x + w.u.xt) * (w.v.y + w.v.yt)) - (1 + 10 * eps p ^ 2) * (g * g * w.z * (w.u.x * w.v.y))) -
    ((g + s) * (g + s) * (w.z + w.zt) * ((w.v.x + w.v.xt) * (w.u.y + w.u.yt)) - (1 + 10 * eps p ^ 2) * (g * g * w.z * (w.v.x * w.u.y))) := by
    unfold W W0 k0; ring
  rw [e]
  set κ := 5 * eps p + 5 * eps p ^ 2 + 120 * eps p ^ 3 with hκ
  have κ0 : 0 ≤ κ := by positivity
  set U1 := rnd p (w.u.x * w.v.y) with hU1
  set U2 := rnd p (w.v.x * w.u.y) with hU2
  have s1 := le_rnd_mul hp0 (add_nonneg (abs_nonneg U1) (abs_nonneg U2))
  have s2 := c3 _ (rep_rnd hp0 (|U1| + |U2|)) (rnd_nonneg hp0 (by positivity))
  have hR : w.R p = rnd p (rnd p (|U1| + |U2|) * |w.z|) := rfl
  rw [← hR] at s2
  have s3 := mul_le_mul_of_nonneg_left s1 (abs_nonneg w.z)
  have s4 := mul_le_mul_of_nonneg_left s2 (show 0 ≤ 1 + eps p by linarith)
  have s5 : |w.z| * (|U1| + |U2|) ≤ (1 + eps p) * ((1 + c) * w.R p) := by linarith only [s3, s4]
  have s6 := mul_le_mul_of_nonneg_left s5 (mul_nonneg κ0 gg)
  refine (abs_sub _ _).trans (le_of_mul_le_mul_left ?_ (show 0 < 1 + c by linarith))
  linarith only [m1, m2, s6]

end Wedge

theorem aff {c d z e : ℚ} (h : |z| ≤ e) (h1 : 0 ≤ c + d * e) (h2 : 0 ≤ c - d * e) : 0 ≤ c + d * z := by
  obtain ⟨h3, h4⟩ := abs_le.mp h
  rcases le_total 0 d with hd | hd <;> nlinarith

theorem del {e x t : ℚ} (he : 0 ≤ e) (h : |t| ≤ e * |x|) : ∃ δ, |δ| ≤ e ∧ t = x * δ := by
  obtain ⟨r, h1, h2, h3⟩ := Ratio.of_tail he h
  exact ⟨r - 1, abs_le.mpr ⟨by linarith, by linarith⟩, by linarith⟩

theorem second_order {e a z u v : ℚ} (ha : |a| ≤ e) (hz : |z| ≤ e) (hu : |u| ≤ e) (hv : |v| ≤ e) :
    |a * a + 2 * a * (z + u + v) + (z * u + z * v + u * v) - 4 * e ^ 2| ≤ 6 * e ^ 2 := by
  obtain ⟨a1, a2⟩ := abs_le.mp ha
  have mm : ∀ {x y : ℚ}, |x| ≤ e → |y| ≤ e → x * y ≤ e * e := fun {x y} h h' =>
    (le_abs_self _).trans (by rw [abs_mul]; exact mul_le_mul h h' (abs_nonneg _) ((abs_nonneg _).trans h))
  have lo : 0 ≤ a * a + 2 * a * (z + u + v) + (z * u + z * v + u * v) + 2 * e ^ 2 := by
    have f1 : ∀ s t r : ℚ, s = e ∨ s = -e → t = e ∨ t = -e → r = e ∨ r = -e →
        0 ≤ a * a + 2 * a * (s + t + r) + (s * t + s * r + t * r) + 2 * e ^ 2 := by
      have q1 : 0 ≤ (e + a) * (e + a) := mul_self_nonneg _
      have q2 : 0 ≤ (e - a) * (e - a) := mul_self_nonneg _
      have q3 : 0 ≤ (e + a) * (5 * e + a) := mul_nonneg (by linarith) (by linarith)
      have q4 : 0 ≤ (e - a) * (5 * e - a) := mul_nonneg (by linarith) (by linarith)
      rintro s t r (rfl | rfl) (rfl | rfl) (rfl | rfl) <;> nlinarith
    have f2 : ∀ s t : ℚ, s = e ∨ s = -e → t = e ∨ t = -e → 0 ≤ a * a + 2 * a * (s + t + v) + (s * t + s * v + t * v) + 2 * e ^ 2 := by
      intro s t hs ht
      have g1 := f1 s t e hs ht (Or.inl rfl)
      have g2 := f1 s t (-e) hs ht (Or.inr rfl)
      have := aff (c := a * a + 2 * a * (s + t) + s * t + 2 * e ^ 2) (d := 2 * a + s + t) hv (by linarith) (by linarith)
      linarith
    have f3 : ∀ s : ℚ, s = e ∨ s = -e → 0 ≤ a * a + 2 * a * (s + u + v) + (s * u + s * v + u * v) + 2 * e ^ 2 := by
      intro s hs
      have g1 := f2 s e hs (Or.inl rfl)
      have g2 := f2 s (-e) hs (Or.inr rfl)
      have := aff (c := a * a + 2 * a * (s + v) + s * v + 2 * e ^ 2) (d := 2 * a + s + v) hu (by linarith) (by linarith)
      linarith
    have g1 := f3 e (Or.inl rfl)
    have g2 := f3 (-e) (Or.inr rfl)
    have := aff (c := a * a + 2 * a * (u + v) + u * v + 2 * e ^ 2) (d := 2 * a + u + v) hz (by linarith) (by linarith)
    linarith
  have h1 := mm ha ha
  have h2 := mm ha hz
  have h3 := mm ha hu
  have h4 := mm ha hv
  have h5 := mm hz hu
  have h6 := mm hz hv
  have h7 := mm hu hv
  exact abs_le.mpr ⟨by linarith, by linarith⟩

theorem third_order {e a z u v : ℚ} (he' : e ≤ 1 / 2048) (ha : |a| ≤ e) (hz : |z| ≤ e) (hu : |u| ≤ e) (hv : |v| ≤ e) :
    |(a * a * (z + u + v) + 2 * a * (z * u + z * v + u * v) + z * u * v) + (a * a * (z * u + z * v + u * v) + 2 * a * (z * u * v)) +
      a * a * (z * u * v)| ≤ 11 * e ^ 3 := by
  have e0 : 0 ≤ e := (abs_nonneg a).trans ha
  have mm : ∀ {x y E F : ℚ}, |x| ≤ E → |y| ≤ F → |x * y| ≤ E * F := fun {x y E F} h h' => by
    rw [abs_mul]; exact mul_le_mul h h' (abs_nonneg _) ((abs_nonneg _).trans h)
  have h1 : |z + u + v| ≤ 3 * e := (abs_add_three _ _ _).trans (by linarith)
  have h2 : |z * u + z * v + u * v| ≤ 3 * (e * e) := (abs_add_three _ _ _).trans (by linarith [mm hz hu, mm hz hv, mm hu hv])
  have h3 := mm (mm hz hu) hv
  have haa := mm ha ha
  have h2a : |2 * a| ≤ 2 * e := by rw [abs_mul]; norm_num; exact ha
  have k1 := mm haa h1
  have k2 := mm h2a h2
  have k3 := mm haa h2
  have k4 := mm h2a h3
  have k5 := mm haa h3
  have k6 := abs_add_three (a * a * (z + u + v)) (2 * a * (z * u + z * v + u * v)) (z * u * v)
  have k7 := abs_add_le (a * a * (z * u + z * v + u * v)) (2 * a * (z * u * v))
  refine (abs_add_three _ _ _).trans ?_
  have e3 : 0 ≤ e * e * e := by positivity
  have e4 : e * e * e * e ≤ e * e * e * (1 / 2048) := mul_le_mul_of_nonneg_left he' e3
  have e5 : e * e * e * e * e ≤ e * e * e * (1 / 2048) := by
    have := mul_le_mul e4 he' e0 (by positivity)
    linarith
  linarith

/-- One product of five factors, up to the terms of second order. -/
theorem mono_second {p : Nat} (hp : 11 ≤ p) {x s z t y u v w : ℚ} (hx : |s| ≤ eps p * |x|) (hz : |t| ≤ eps p * |z|) (hy : |u| ≤ eps p * |y|)
    (hv : |w| ≤ eps p * |v|) :
    |(x + s) * (x + s) * (z + t) * ((y + u) * (v + w)) - (1 + 4 * eps p ^ 2) * (x * x * z * (y * v)) -
      (x * x * (z * (y * w + v * u) + t * (y * v)) + 2 * (x * s) * (z * (y * v)))| ≤
      (6 * eps p ^ 2 + 11 * eps p ^ 3) * (x * x * |z| * |y * v|) := by
  have he := eps_pos p
  have he' := eps_le hp
  obtain ⟨a, ha, rfl⟩ := del he.le hx
  obtain ⟨b, hb, rfl⟩ := del he.le hz
  obtain ⟨c, hc, rfl⟩ := del he.le hy
  obtain ⟨d, hd, rfl⟩ := del he.le hv
  have h1 := second_order ha hb hc hd
  have h2 := third_order he' ha hb hc hd
  set S := a * a + 2 * a * (b + c + d) + (b * c + b * d + c * d) - 4 * eps p ^ 2 with hS
  set T := (a * a * (b + c + d) + 2 * a * (b * c + b * d + c * d) + b * c * d) + (a * a * (b * c + b * d + c * d) + 2 * a * (b * c * d)) +
      a * a * (b * c * d) with hT
  have e : (x + x * a) * (x + x * a) * (z + z * b) * ((y + y * c) * (v + v * d)) - (1 + 4 * eps p ^ 2) * (x * x * z * (y * v)) -
      (x * x * (z * (y * (v * d) + v * (y * c)) + z * b * (y * v)) + 2 * (x * (x * a)) * (z * (y * v))) = (S + T) * (x * x * z * (y * v)) := by
    rw [hS, hT]; ring
  rw [e, abs_mul]
  have e1 : |x * x * z * (y * v)| = x * x * |z| * |y * v| := by rw [abs_mul, abs_mul, abs_mul x x, abs_mul_abs_self]
  rw [e1]
  exact mul_le_mul_of_nonneg_right ((abs_add_le _ _).trans (add_le_add h1 h2))
    (mul_nonneg (mul_nonneg (mul_self_nonneg x) (abs_nonneg z)) (abs_nonneg _))

/-- Third filter: one coordinate of the squared length. -/
theorem Wedge.Ok.second {p : Nat} (hp : 11 ≤ p) {w : Wedge} (h : w.Ok p) {g s : ℚ} (hg : |s| ≤ eps p * |g|) :
    |(g + s) * (g + s) * w.W - (1 + 4 * eps p ^ 2) * (g * g * w.W0) - (g * g * (w.z * w.k1 + w.zt * w.k0) + 2 * (g * s) * w.W0)| ≤
      (6 * eps p ^ 2 + 11 * eps p ^ 3) * (g * g * w.m) := by
  have m1 := mono_second hp hg h.bz h.u.bx h.v.by_
  have m2 := mono_second hp hg h.bz h.v.bx h.u.by_
  have e : (g + s) * (g + s) * w.W - (1 + 4 * eps p ^ 2) * (g * g * w.W0) - (g * g * (w.z * w.k1 + w.zt * w.k0) + 2 * (g * s) * w.W0) =
    ((g + s) * (g + s) * (w.z + w.zt) * ((w.u.x + w.u.xt) * (w.v.y + w.v.yt)) - (1 + 4 * eps p ^ 2) * (g * g * w.z * (w.u.x * w.v.y)) -
      (g * g * (w.z * (w.u.x * w.v.yt + w.v.y * w.u.xt) + w.zt * (w.u.x * w.v.y)) + 2 * (g * s) * (w.z * (w.u.x * w.v.y)))) -
    ((g + s) * (g + s) * (w.z + w.zt) * ((w.v.x + w.v.xt) * (w.u.y + w.u.yt)) - (1 + 4 * eps p ^ 2) * (g * g * w.z * (w.v.x * w.u.y)) -
      (g * g * (w.z * (w.v.x * w.u.yt + w.u.y * w.v.xt) + w.zt * (w.v.x * w.u.y)) + 2 * (g * s) * (w.z * (w.v.x * w.u.y)))) := by
    unfold Wedge.W Wedge.W0 Wedge.k0 Wedge.k1; ring
  rw [e]
  refine (abs_sub _ _).trans ?_
  unfold Wedge.m Wedge.mc
  linarith only [m1, m2]

end FP
end Verif
