import Verif.Lemmas.Filter
import Verif.Lemmas.Insphere2Exact

/-!
# Rounding errors of numbers that are not powers of two

The second filter of the insphere test needs a sharper analysis than one unit per operation: a relative error close to `eps p` occurs only for
numbers close to a power of two, and products with a power of two are exact.
-/
namespace Verif
namespace FP

/-- Either products with the rounded number are exact, or the rounding error is smaller than `eps p`. -/
theorem rnd_tight {p : Nat} (hp : 0 < p) (X : ℚ) :
    (∀ s, Rep p s → Rep p (s * rnd p X)) ∨ |X - rnd p X| * (1 + 2 * eps p) ≤ eps p * |rnd p X| := by
  by_cases h0 : X = 0
  · left
    intro s _
    rw [h0, rnd_zero, mul_zero]
    exact Rep.zero p
  have h1 := rnd_err p X
  rw [abs_sub_comm] at h1
  have h2 := le_abs_rnd hp (Rep.pow p hp _) (grid_spec p h0).1
  rcases lt_or_eq_of_le h2 with h2 | h2
  · right
    have h3 := Mul.le_sub (Mul.pow (show grid p X ≤ grid p X + p - 1 by omega)) (rnd_mul_grid p X).abs h2
    have h4 : eps p * 2 ^ (grid p X + p - 1) = 2 ^ grid p X / 2 := by
      rw [eps, ← zpow_add₀ (by norm_num), show -(p : Int) + (grid p X + p - 1) = grid p X - 1 by ring, zpow_sub_one₀ (by norm_num)]
      ring
    have he := eps_pos p
    have h5 := mul_le_mul_of_nonneg_left h3 he.le
    have h6 := mul_le_mul_of_nonneg_right h1 (show 0 ≤ 1 + 2 * eps p by linarith)
    linarith
  · left
    intro s hs
    rcases abs_choice (rnd p X) with h | h
    · rw [← h, ← h2]; exact hs.scale _
    · have : s * rnd p X = -(s * |rnd p X|) := by rw [h]; ring
      rw [this, ← h2]; exact (hs.scale _).neg

/-- Bound on a tail, when the product is rounded with the error `ρ`. -/
def dl (e ρ : ℚ) : ℚ := e * (1 - 2 * ρ) + 4 * e ^ 3

theorem dl_zero {e : ℚ} (he : 0 ≤ e) : e ≤ dl e 0 := by unfold dl; have := pow_nonneg he 3; linarith

theorem dl_self {e x y : ℚ} (he : 0 ≤ e) (hy : 0 ≤ y) (h : x * (1 + 2 * e) ≤ e * y) : x ≤ dl e e * y := by
  have h1 : e * y ≤ (dl e e * y) * (1 + 2 * e) := by
    have : (dl e e * y) * (1 + 2 * e) = e * y + 8 * e ^ 4 * y := by unfold dl; ring
    rw [this]
    have := mul_nonneg (pow_nonneg he 4) hy
    linarith
  exact le_of_mul_le_mul_right (h.trans h1) (by linarith)

theorem dl_bounds {e ρ : ℚ} (he : 0 ≤ e) (h0 : 0 ≤ ρ) (h1 : ρ ≤ e) : e - 2 * e ^ 2 ≤ dl e ρ ∧ dl e ρ ≤ e + 4 * e ^ 3 := by
  have h2 := mul_le_mul_of_nonneg_left h1 he
  have h3 := mul_nonneg he h0
  have := pow_nonneg he 3
  unfold dl
  constructor
  · linarith
  · linarith

/-- A number that later is a factor of a rounded product. -/
theorem fac_mul {p : Nat} (hp : 0 < p) {x t : ℚ} (hx : rnd p (x + t) = x) :
    ∃ ρ, 0 ≤ ρ ∧ ρ ≤ eps p ∧ |t| ≤ dl (eps p) ρ * |x| ∧ ∀ s, Rep p s → 0 ≤ s → s * |x| ≤ (1 + ρ) * rnd p (s * |x|) := by
  have he := eps_pos p
  have hb : |t| ≤ eps p * |x| := by
    have := rnd_rel' hp (x + t)
    rw [hx, abs_sub_comm] at this
    simpa using this
  rcases rnd_tight hp (x + t) with h | h
  · refine ⟨0, le_refl _, he.le, hb.trans (mul_le_mul_of_nonneg_right (dl_zero he.le) (abs_nonneg _)), fun s hs h0 => ?_⟩
    have h1 := (h s hs).abs
    rw [hx, abs_mul, abs_of_nonneg h0] at h1
    rw [rnd_rep h1]
    linarith
  · refine ⟨eps p, he.le, le_refl _, ?_, fun s hs h0 => le_rnd_mul hp (mul_nonneg h0 (abs_nonneg _))⟩
    rw [hx] at h
    have e : x + t - x = t := by ring
    rw [e] at h
    exact dl_self he.le (abs_nonneg _) h

/-- Two numbers whose product is rounded. -/
theorem fac_prod {p : Nat} (hp : 0 < p) {x t y u : ℚ} (hx : rnd p (x + t) = x) (hy : rnd p (y + u) = y) :
    ∃ ρ, 0 ≤ ρ ∧ ρ ≤ eps p ∧ |t| ≤ dl (eps p) ρ * |x| ∧ |u| ≤ dl (eps p) ρ * |y| ∧ |x * y| ≤ (1 + ρ) * |rnd p (x * y)| := by
  have he := eps_pos p
  have hb : ∀ {x t}, rnd p (x + t) = x → |t| ≤ dl (eps p) 0 * |x| := fun {x t} hx => by
    have := rnd_rel' hp (x + t)
    rw [hx, abs_sub_comm] at this
    have h1 : |t| ≤ eps p * |x| := by simpa using this
    exact h1.trans (mul_le_mul_of_nonneg_right (dl_zero he.le) (abs_nonneg _))
  have rx : Rep p x := hx ▸ rep_rnd hp _
  have ry : Rep p y := hy ▸ rep_rnd hp _
  by_cases hr : Rep p (x * y)
  · refine ⟨0, le_refl _, he.le, hb hx, hb hy, ?_⟩
    rw [rnd_rep hr]
    linarith
  · have hx' : |x + t - rnd p (x + t)| * (1 + 2 * eps p) ≤ eps p * |rnd p (x + t)| := by
      rcases rnd_tight hp (x + t) with h | h
      · exact absurd (by have := h y ry; rwa [hx, mul_comm] at this) hr
      · exact h
    have hy' : |y + u - rnd p (y + u)| * (1 + 2 * eps p) ≤ eps p * |rnd p (y + u)| := by
      rcases rnd_tight hp (y + u) with h | h
      · exact absurd (by have := h x rx; rwa [hy] at this) hr
      · exact h
    rw [hx] at hx'
    rw [hy] at hy'
    have e1 : x + t - x = t := by ring
    have e2 : y + u - y = u := by ring
    rw [e1] at hx'
    rw [e2] at hy'
    exact ⟨eps p, he.le, le_refl _, dl_self he.le (abs_nonneg _) hx', dl_self he.le (abs_nonneg _) hy', abs_le_rnd_mul hp _⟩

/-- The numbers of the second filter of the insphere test. -/
theorem num_upper {e A Z U : ℚ} (he : 0 ≤ e) (he' : e ≤ 1 / 2048) (hA : e - 2 * e ^ 2 ≤ A ∧ A ≤ e + 4 * e ^ 3)
    (hZ : e - 2 * e ^ 2 ≤ Z ∧ Z ≤ e + 4 * e ^ 3) (hU : e - 2 * e ^ 2 ≤ U ∧ U ≤ e + 4 * e ^ 3) :
    (1 + A) * (1 + A) * (1 + Z) * ((1 + U) * (1 + U)) ≤ 1 + 10 * e ^ 2 + (2 * A + Z + 2 * U + 52 * e ^ 3) := by
  have e2 : 0 ≤ e ^ 2 := by positivity
  have e2' : e ^ 2 ≤ e / 2048 := by nlinarith
  have b0 : 0 ≤ e - 2 * e ^ 2 := by linarith
  have hA0 : 0 ≤ A := b0.trans hA.1
  have hZ0 : 0 ≤ Z := b0.trans hZ.1
  have hU0 : 0 ≤ U := b0.trans hU.1
  have e3 : e ^ 3 ≤ e / 2048 ^ 2 := by
    have : e ^ 3 = e * e ^ 2 := by ring
    rw [this]
    nlinarith
  obtain ⟨t, ht⟩ : ∃ t, t = e + 4 * e ^ 3 := ⟨_, rfl⟩
  have ht0 : 0 ≤ t := by rw [ht]; positivity
  have hA1 : A ≤ t := ht ▸ hA.2
  have hZ1 : Z ≤ t := ht ▸ hZ.2
  have hU1 : U ≤ t := ht ▸ hU.2
  have key : (1 + A) * (1 + A) * (1 + Z) * ((1 + U) * (1 + U)) - 1 - (2 * A + Z + 2 * U) ≤
      (1 + t) * (1 + t) * (1 + t) * ((1 + t) * (1 + t)) - 1 - (2 * t + t + 2 * t) := by
    have l : ∀ A Z U : ℚ, (1 + A) * (1 + A) * (1 + Z) * ((1 + U) * (1 + U)) - 1 - (2 * A + Z + 2 * U) =
      (A * A + 2 * A * Z + 4 * A * U + 2 * Z * U + U * U) + (A * A * Z + 2 * A * A * U + 4 * A * Z * U + 2 * A * U * U + Z * U * U) +
      (2 * A * A * Z * U + A * A * U * U + 2 * A * Z * U * U) + A * A * Z * U * U := by intros; ring
    rw [l, l]
    gcongr
  have te : t ≤ e * (1 + 1 / 2 ^ 19) := by rw [ht]; nlinarith
  have k2 : (1 + t) * (1 + t) * (1 + t) * ((1 + t) * (1 + t)) - 1 - (2 * t + t + 2 * t) = 10 * t ^ 2 + t ^ 3 * (10 + 5 * t + t ^ 2) := by ring
  have k3 : 10 * t ^ 2 = 10 * e ^ 2 + e ^ 3 * (80 * e + 160 * e ^ 3) := by rw [ht]; ring
  have k4 : t ^ 3 ≤ e ^ 3 * (11 / 10) := by
    have := pow_le_pow_left₀ ht0 te 3
    refine this.trans ?_
    rw [mul_pow]
    exact mul_le_mul_of_nonneg_left (by norm_num) (by positivity)
  have k5 : 10 + 5 * t + t ^ 2 ≤ 11 := by nlinarith
  have k6 := mul_le_mul k4 k5 (by positivity) (by positivity)
  have k7 : e ^ 3 * (80 * e + 160 * e ^ 3) ≤ e ^ 3 * 1 := mul_le_mul_of_nonneg_left (by linarith) (by positivity)
  have e30 : 0 ≤ e ^ 3 := by positivity
  linarith

theorem num_lower {e A Z U : ℚ} (he : 0 ≤ e) (he' : e ≤ 1 / 2048) (hA : e - 2 * e ^ 2 ≤ A ∧ A ≤ e + 4 * e ^ 3)
    (hZ : e - 2 * e ^ 2 ≤ Z ∧ Z ≤ e + 4 * e ^ 3) (hU : e - 2 * e ^ 2 ≤ U ∧ U ≤ e + 4 * e ^ 3) :
    1 + 10 * e ^ 2 - (2 * A + Z + 2 * U + 52 * e ^ 3) ≤ (1 - A) * (1 - A) * (1 - Z) * ((1 - U) * (1 - U)) := by
  have e2 : 0 ≤ e ^ 2 := by positivity
  have e2' : e ^ 2 ≤ e / 2048 := by nlinarith
  have b0 : 0 ≤ e - 2 * e ^ 2 := by linarith
  have hA0 : 0 ≤ A := b0.trans hA.1
  have hZ0 : 0 ≤ Z := b0.trans hZ.1
  have hU0 : 0 ≤ U := b0.trans hU.1
  have e3 : e ^ 3 ≤ e / 2048 ^ 2 := by
    have : e ^ 3 = e * e ^ 2 := by ring
    rw [this]
    nlinarith
  obtain ⟨t, ht⟩ : ∃ t, t = e + 4 * e ^ 3 := ⟨_, rfl⟩
  obtain ⟨b, hb⟩ : ∃ b, b = e - 2 * e ^ 2 := ⟨_, rfl⟩
  have ht0 : 0 ≤ t := by rw [ht]; positivity
  have hb0 : 0 ≤ b := by rw [hb]; exact b0
  have hA1 : A ≤ t := ht ▸ hA.2
  have hZ1 : Z ≤ t := ht ▸ hZ.2
  have hU1 : U ≤ t := ht ▸ hU.2
  have hA2 : b ≤ A := hb ▸ hA.1
  have hZ2 : b ≤ Z := hb ▸ hZ.1
  have hU2 : b ≤ U := hb ▸ hU.1
  have l : (1 - A) * (1 - A) * (1 - Z) * ((1 - U) * (1 - U)) =
    1 - (2 * A + Z + 2 * U) + (A * A + 2 * A * Z + 4 * A * U + 2 * Z * U + U * U) -
      (A * A * Z + 2 * A * A * U + 4 * A * Z * U + 2 * A * U * U + Z * U * U) +
      (2 * A * A * Z * U + A * A * U * U + 2 * A * Z * U * U) - A * A * Z * U * U := by ring
  have k1 : b * b + 2 * b * b + 4 * b * b + 2 * b * b + b * b ≤ A * A + 2 * A * Z + 4 * A * U + 2 * Z * U + U * U := by gcongr
  have k2 : A * A * Z + 2 * A * A * U + 4 * A * Z * U + 2 * A * U * U + Z * U * U ≤
    t * t * t + 2 * t * t * t + 4 * t * t * t + 2 * t * t * t + t * t * t := by gcongr
  have k3 : A * A * Z * U * U ≤ t * t * t * t * t := by gcongr
  have k4 : 0 ≤ 2 * A * A * Z * U + A * A * U * U + 2 * A * Z * U * U := by positivity
  have te : t ≤ e * (1 + 1 / 2 ^ 19) := by rw [ht]; nlinarith
  have k5 : t ^ 3 ≤ e ^ 3 * (11 / 10) := by
    have := pow_le_pow_left₀ ht0 te 3
    refine this.trans ?_
    rw [mul_pow]
    exact mul_le_mul_of_nonneg_left (by norm_num) (by positivity)
  have k6 : t ^ 3 * t ^ 2 ≤ t ^ 3 * (1 / 100) := mul_le_mul_of_nonneg_left (by nlinarith) (by positivity)
  have k7 : b * b + 2 * b * b + 4 * b * b + 2 * b * b + b * b = 10 * e ^ 2 - 40 * e ^ 3 + 40 * e ^ 4 := by rw [hb]; ring
  have k8 : t * t * t + 2 * t * t * t + 4 * t * t * t + 2 * t * t * t + t * t * t = 10 * t ^ 3 := by ring
  have k9 : t * t * t * t * t = t ^ 3 * t ^ 2 := by ring
  have e30 : 0 ≤ e ^ 3 := by positivity
  have e40 : 0 ≤ e ^ 4 := by positivity
  rw [l]
  linarith

theorem num_weight {e a z u : ℚ} (he : 0 ≤ e) (he' : e ≤ 1 / 2048) (ha : 0 ≤ a ∧ a ≤ e) (hz : 0 ≤ z ∧ z ≤ e) (hu : 0 ≤ u ∧ u ≤ e) :
    (2 * dl e a + dl e z + 2 * dl e u + 52 * e ^ 3) * ((1 + a) * (1 + u) * (1 + z)) ≤ 5 * e + 5 * e ^ 2 + 120 * e ^ 3 := by
  obtain ⟨ha, ha'⟩ := ha
  obtain ⟨hz, hz'⟩ := hz
  obtain ⟨hu, hu'⟩ := hu
  have s1 : 2 * dl e a + dl e z + 2 * dl e u + 52 * e ^ 3 = e * (5 - (4 * a + 2 * z + 4 * u) + 72 * e ^ 2) := by unfold dl; ring
  have w1 : (1 + a) * (1 + u) * (1 + z) ≤ 1 + (a + z + u) + 4 * e ^ 2 := by
    have i1 := mul_le_mul ha' hu' hu he
    have i2 := mul_le_mul ha' hz' hz he
    have i3 := mul_le_mul hu' hz' hz he
    have i4 := mul_le_mul i1 hz' hz (by positivity)
    have : e * e * e ≤ e * e := by nlinarith
    linarith
  have p1 : 0 ≤ 5 - (4 * a + 2 * z + 4 * u) + 72 * e ^ 2 := by nlinarith
  have w2 := mul_le_mul_of_nonneg_left w1 p1
  have w3 : (5 - (4 * a + 2 * z + 4 * u) + 72 * e ^ 2) * (1 + (a + z + u) + 4 * e ^ 2) ≤ 5 + 5 * e + 120 * e ^ 2 := by
    have i1 : 0 ≤ (4 * a + 2 * z + 4 * u) * ((a + z + u) + 4 * e ^ 2) := by positivity
    have i2 : e ^ 2 * ((a + z + u) + 4 * e ^ 2) ≤ e ^ 2 * (1 / 100) := mul_le_mul_of_nonneg_left (by nlinarith) (by positivity)
    have i3 : 0 ≤ e ^ 2 := by positivity
    linarith
  rw [s1, mul_assoc]
  have := mul_le_mul_of_nonneg_left (w2.trans w3) he
  linarith

/-- One product of five factors. -/
theorem mono_tight {p : Nat} (hp : 11 ≤ p) {x s z t y u v w a c d : ℚ} (ha : 0 ≤ a ∧ a ≤ eps p) (hc : 0 ≤ c ∧ c ≤ eps p) (hd : 0 ≤ d ∧ d ≤ eps p)
    (hx : |s| ≤ dl (eps p) a * |x|) (hz : |t| ≤ dl (eps p) c * |z|) (hy : |u| ≤ dl (eps p) d * |y|) (hv : |w| ≤ dl (eps p) d * |v|)
    {A U : ℚ} (hA : x * x ≤ (1 + a) * A) (hU : |y * v| ≤ (1 + d) * |U|) :
    (1 + c) * |(x + s) * (x + s) * (z + t) * ((y + u) * (v + w)) - (1 + 10 * eps p ^ 2) * (x * x * z * (y * v))| ≤
      (5 * eps p + 5 * eps p ^ 2 + 120 * eps p ^ 3) * (A * |z| * |U|) := by
  have he := eps_pos p
  have he' := eps_le hp
  have Ba := dl_bounds he.le ha.1 ha.2
  have Bc := dl_bounds he.le hc.1 hc.2
  have Bd := dl_bounds he.le hd.1 hd.2
  have e2 : eps p ^ 2 ≤ eps p / 2048 := by nlinarith
  have e3 : eps p ^ 3 ≤ eps p / 2048 := by
    have : eps p ^ 3 = eps p * eps p ^ 2 := by ring
    rw [this]
    nlinarith
  have n : ∀ {r}, eps p - 2 * eps p ^ 2 ≤ r ∧ r ≤ eps p + 4 * eps p ^ 3 → 0 ≤ r ∧ 0 ≤ 1 - r := fun h => ⟨by linarith [h.1], by linarith [h.2]⟩
  have r1 := Ratio.of_tail (n Ba).1 hx
  have r2 := Ratio.of_tail (n Bc).1 hz
  have r3 := Ratio.of_tail (n Bd).1 hy
  have r4 := Ratio.of_tail (n Bd).1 hv
  have nn := mul_nonneg (n Ba).2 (n Ba).2
  have r := ((r1.mul r1 (n Ba).2 (n Ba).2).mul r2 nn (n Bc).2).mul (r3.mul r4 (n Bd).2 (n Bd).2) (mul_nonneg nn (n Bc).2)
    (mul_nonneg (n Bd).2 (n Bd).2)
  have h := r.err (lam := 1 + 10 * eps p ^ 2) (κ := 2 * dl (eps p) a + dl (eps p) c + 2 * dl (eps p) d + 52 * eps p ^ 3)
    (num_upper he.le he' Ba Bc Bd) (num_lower he.le he' Ba Bc Bd)
  have W := num_weight he.le he' ha hc hd
  set κ := 2 * dl (eps p) a + dl (eps p) c + 2 * dl (eps p) d + 52 * eps p ^ 3 with hκ
  have κ0 : 0 ≤ κ := by have := (n Ba).1; have := (n Bc).1; have := (n Bd).1; positivity
  have c0 : 0 ≤ 1 + c := by linarith [hc.1]
  have h1 := mul_le_mul_of_nonneg_left h c0
  refine h1.trans ?_
  have e1 : |x * x * z * (y * v)| = x * x * |z| * |y * v| := by rw [abs_mul, abs_mul, abs_mul x x, abs_mul_abs_self]
  rw [e1]
  have A0 : 0 ≤ A := by
    have := mul_self_nonneg x
    by_contra hA'
    rw [not_le] at hA'
    have := mul_neg_of_pos_of_neg (show 0 < 1 + a by linarith [ha.1]) hA'
    linarith
  have i1 : x * x * |y * v| ≤ ((1 + a) * A) * ((1 + d) * |U|) := mul_le_mul hA hU (abs_nonneg _) ((mul_self_nonneg x).trans hA)
  have i2 := mul_le_mul_of_nonneg_left i1 (show 0 ≤ (1 + c) * κ * |z| by positivity)
  have i3 := mul_le_mul_of_nonneg_right W (show 0 ≤ A * |z| * |U| by positivity)
  linarith

end FP
end Verif
