import Verif.Lemmas.InSimplexFP

/-!
# The test in space in floating point arithmetic
-/
namespace Verif
namespace FPM
open FP
variable {p : Nat} {rd : ℚ → ℚ}

theorem eps_le32 (hp : 5 ≤ p) : eps p ≤ 1 / 32 := by
  have he : eps p = ((2 : ℚ) ^ p)⁻¹ := by unfold eps; rw [zpow_neg, zpow_natCast]
  have hP : (32 : ℚ) ≤ 2 ^ p := by
    calc (32 : ℚ) = 2 ^ 5 := by norm_num
      _ ≤ 2 ^ p := pow_le_pow_right₀ (by norm_num) hp
  rw [he, one_div]; exact inv_anti₀ (by norm_num) hP

/-- The rounded sum of two coordinates. -/
theorem inner3 (hp : 5 ≤ p) (h : Good p rd) {den m1 m2 : Int} {b c : ℚ} (hd : den ≤ -1) (hd' : -den * 8 ≤ 2 ^ p) (hb : -((m1 : ℚ) / den) = b)
    (hc : -((m2 : ℚ) / den) = c) (u v : ℚ) (au : Appr p u b) (av : Appr p v c) (bu : |b| ≤ 2 ^ p) (bv : |c| ≤ 2 ^ p) (hb0 : 0 ≤ b) (hc0 : 0 ≤ c) :
    (b + c) * (1 - 4 * eps p) ≤ rd (u + v) ∧ rd (u + v) ≤ (b + c) * (1 + 4 * eps p) := by
  have hp4 : 4 ≤ p := by omega
  have hden : (den : ℚ) ≠ 0 := by
    have : (den : ℚ) ≤ -1 := by exact_mod_cast hd
    linarith
  have he := eps_pos p
  have he4 := eps_le32 hp
  obtain ⟨u1, u2⟩ := au.bounds hp4 hb0
  obtain ⟨v1, v2⟩ := av.bounds hp4 hc0
  rw [abs_of_nonneg hb0] at bu
  rw [abs_of_nonneg hc0] at bv
  have h4 : (1 + eps p) ^ 2 ≤ 2 := by nlinarith
  have h5 : b * (1 + eps p) ^ 2 ≤ b * 2 := mul_le_mul_of_nonneg_left h4 hb0
  have h6 : c * (1 + eps p) ^ 2 ≤ c * 2 := mul_le_mul_of_nonneg_left h4 hc0
  have hlo : (b + c) * (1 - 3 * eps p) ≤ u + v := by linarith
  have hhi : u + v ≤ (b + c) * (1 + eps p) ^ 2 := by linarith
  have h9 : u + v = 0 ∨ eps p / 2 ≤ u + v := by
    by_cases hz : 0 < b + c
    · right
      have : 8 * eps p ≤ b + c := by
        refine gap (m := m1 + m2) hd hd' ?_ hz
        push_cast
        rw [← hb, ← hc]
        field_simp
        ring
      nlinarith
    · left
      have hbc : b + c = 0 := by linarith
      rw [hbc] at hlo hhi
      linarith
  obtain ⟨-, h10, h11⟩ := round_mid hp4 h h9 (by linarith)
  constructor
  · have h12 : (b + c) * (1 - 3 * eps p) * (1 - eps p) ≤ (u + v) * (1 - eps p) := mul_le_mul_of_nonneg_right hlo (by linarith)
    have h13 : (b + c) * (1 - 4 * eps p) ≤ (b + c) * (1 - 3 * eps p) * (1 - eps p) := by
      rw [mul_assoc]
      exact mul_le_mul_of_nonneg_left (by nlinarith) (by linarith)
    linarith
  · have h12 : (u + v) * (1 + eps p) ≤ (b + c) * (1 + eps p) ^ 2 * (1 + eps p) := mul_le_mul_of_nonneg_right hhi (by linarith)
    have h14 : (1 + eps p) ^ 2 ≤ 1 + 5 / 2 * eps p := by nlinarith
    have h15 : (1 + eps p) ^ 2 * (1 + eps p) ≤ (1 + 5 / 2 * eps p) * (1 + eps p) := mul_le_mul_of_nonneg_right h14 (by linarith)
    have h13 : (b + c) * (1 + eps p) ^ 2 * (1 + eps p) ≤ (b + c) * (1 + 4 * eps p) := by
      rw [mul_assoc]
      exact mul_le_mul_of_nonneg_left (by nlinarith) (by linarith)
    linarith

set_option maxHeartbeats 1000000 in
/-- Decision with three rounded coordinates. -/
theorem decide3 (hp : 5 ≤ p) (h : Good p rd) {den m1 m2 m3 : Int} {b c d : ℚ} (hd : den ≤ -1) (hd' : -den * 8 ≤ 2 ^ p) (hm1 : |m1| ≤ 2 ^ p) (hm2 : |m2| ≤ 2 ^ p)
    (hm3 : |m3| ≤ 2 ^ p) (hb : -((m1 : ℚ) / den) = b) (hc : -((m2 : ℚ) / den) = c) (hdd : -((m3 : ℚ) / den) = d) (u v z : ℚ)
    (hu : u = -mulR rd m1 (rd (1 / (den : ℚ)))) (hv : v = -mulR rd m2 (rd (1 / (den : ℚ)))) (hz : z = -mulR rd m3 (rd (1 / (den : ℚ)))) :
    (b < 0 ∨ c < 0 ∨ d < 0 ∨ 1 < b + c + d →
      (decide (u ≥ 0) && decide (v ≥ 0) && decide (z ≥ 0) && decide (addR rd (addR rd u v) z ≤ 1)) = false) ∧
    (0 ≤ b → 0 ≤ c → 0 ≤ d → b + c + d < 1 →
      (decide (u ≥ 0) && decide (v ≥ 0) && decide (z ≥ 0) && decide (addR rd (addR rd u v) z ≤ 1)) = true) ∧
    (b = 1 ∧ c = 0 ∧ d = 0 ∨ b = 0 ∧ c = 1 ∧ d = 0 ∨ b = 0 ∧ c = 0 ∧ d = 1 →
      (decide (u ≥ 0) && decide (v ≥ 0) && decide (z ≥ 0) && decide (addR rd (addR rd u v) z ≤ 1)) = true) := by
  have hp4 : 4 ≤ p := by omega
  obtain ⟨au, bu⟩ := quot_appr hp4 h hd hd' hm1 hb
  obtain ⟨av, bv⟩ := quot_appr hp4 h hd hd' hm2 hc
  obtain ⟨az, bz⟩ := quot_appr hp4 h hd hd' hm3 hdd
  rw [← hu] at au
  rw [← hv] at av
  rw [← hz] at az
  have hden : (den : ℚ) ≠ 0 := by
    have : (den : ℚ) ≤ -1 := by exact_mod_cast hd
    linarith
  have he := eps_pos p
  have he4 := eps_le32 hp
  have inner := inner3 hp h hd hd' hb hc u v au av bu bv
  refine ⟨?_, ?_, ?_⟩
  · intro hh
    by_cases hb0 : b < 0
    · have := au.neg hp4 hb0
      simp [not_le.2 this]
    by_cases hc0 : c < 0
    · have := av.neg hp4 hc0
      simp [not_le.2 this]
    by_cases hd0 : d < 0
    · have := az.neg hp4 hd0
      simp [not_le.2 this]
    rw [not_lt] at hb0 hc0 hd0
    have hbc : 1 < b + c + d := by
      rcases hh with h | h | h | h
      · linarith
      · linarith
      · linarith
      · exact h
    have hg : 8 * eps p ≤ b + c + d - 1 := by
      refine gap (m := m1 + m2 + m3 + den) hd hd' ?_ (by linarith)
      push_cast
      rw [← hb, ← hc, ← hdd]
      field_simp
      ring
    obtain ⟨i1, i2⟩ := inner hb0 hc0
    obtain ⟨z1, z2⟩ := az.bounds hp4 hd0
    rw [abs_of_nonneg hb0] at bu
    rw [abs_of_nonneg hc0] at bv
    rw [abs_of_nonneg hd0] at bz
    have h4 : (1 + eps p) ^ 2 ≤ 2 := by nlinarith
    have h5 : d * (1 + eps p) ^ 2 ≤ d * 2 := mul_le_mul_of_nonneg_left h4 hd0
    have h6 : (b + c) * (1 + 4 * eps p) ≤ (b + c) * 2 := mul_le_mul_of_nonneg_left (by linarith) (by linarith)
    have h7 : 1 + 2 * eps p ≤ rd (u + v) + z := by
      have h9 : d * (1 - 4 * eps p) ≤ d * (1 - 3 * eps p) := mul_le_mul_of_nonneg_left (by linarith) hd0
      have : (b + c + d) * (1 - 4 * eps p) ≤ rd (u + v) + z := by linarith
      have h8 : (1 + 8 * eps p) * (1 - 4 * eps p) ≤ (b + c + d) * (1 - 4 * eps p) := mul_le_mul_of_nonneg_right (by linarith) (by linarith)
      nlinarith
    have := final_gt hp4 h h7 (by linarith)
    unfold addR
    simp [not_le.2 this]
  · intro hb0 hc0 hd0 hbc
    have hg : 8 * eps p ≤ 1 - (b + c + d) := by
      refine gap (m := -(m1 + m2 + m3) - den) hd hd' ?_ (by linarith)
      push_cast
      rw [← hb, ← hc, ← hdd]
      field_simp
      ring
    obtain ⟨i1, i2⟩ := inner hb0 hc0
    obtain ⟨z1, z2⟩ := az.bounds hp4 hd0
    have hu0 := au.nonneg hp4 hb0
    have hv0 := av.nonneg hp4 hc0
    have hz0 := az.nonneg hp4 hd0
    have h7 : rd (u + v) + z ≤ 1 := by
      have h9 : d * (1 + eps p) ^ 2 ≤ d * (1 + 4 * eps p) := mul_le_mul_of_nonneg_left (by nlinarith) hd0
      have : rd (u + v) + z ≤ (b + c + d) * (1 + 4 * eps p) := by linarith
      have h8 : (b + c + d) * (1 + 4 * eps p) ≤ (1 - 8 * eps p) * (1 + 4 * eps p) := mul_le_mul_of_nonneg_right (by linarith) (by positivity)
      nlinarith
    have h9 : rd (u + v) + z = 0 ∨ eps p / 2 ≤ rd (u + v) + z := by
      have hl : (b + c + d) * (1 - 4 * eps p) ≤ rd (u + v) + z := by
        have h9 : d * (1 - 4 * eps p) ≤ d * (1 - 3 * eps p) := mul_le_mul_of_nonneg_left (by linarith) hd0
        linarith
      by_cases hz : 0 < b + c + d
      · right
        have : 8 * eps p ≤ b + c + d := by
          refine gap (m := m1 + m2 + m3) hd hd' ?_ hz
          push_cast
          rw [← hb, ← hc, ← hdd]
          field_simp
          ring
        nlinarith
      · left
        have hbc' : b + c = 0 := by linarith
        have hd' : d = 0 := by linarith
        rw [hbc'] at i1 i2
        rw [hd'] at z1 z2
        linarith
    have := final_le hp4 h h9 h7
    unfold addR
    simp [hu0, hv0, hz0, this]
  · have key : ∀ x : ℚ, Appr p x 1 → x ≤ 1 → 0 ≤ x ∧ rd x ≤ 1 ∧ rd (rd x) ≤ 1 := by
      intro x ax hx
      obtain ⟨x1, -⟩ := ax.bounds hp4 (by norm_num)
      have h1 := final_le hp4 h (Or.inr (by linarith)) hx
      have hP : (1 : ℚ) ≤ 2 ^ p := one_le_pow₀ (by norm_num)
      have h2 := (round_mid hp4 h (x := x) (Or.inr (by linarith)) (by linarith)).2.1
      have h3 : (1 - 3 * eps p) * (1 - eps p) ≤ x * (1 - eps p) := mul_le_mul_of_nonneg_right (by linarith) (by linarith)
      exact ⟨by linarith, h1, final_le hp4 h (Or.inr (by nlinarith)) h1⟩
    have r0 : rd 0 = 0 := by rw [h 0 (Or.inl rfl) (by rw [abs_zero]; positivity), FP.rnd_zero]
    unfold addR
    rintro (⟨rfl, rfl, rfl⟩ | ⟨rfl, rfl, rfl⟩ | ⟨rfl, rfl, rfl⟩)
    · have h1 := quot_one hp4 h hd hd' hb
      have h2 := quot_zero hp4 h hd hc (rd (1 / (den : ℚ)))
      have h3 := quot_zero hp4 h hd hdd (rd (1 / (den : ℚ)))
      rw [← hu] at h1
      rw [← hv] at h2
      rw [← hz] at h3
      obtain ⟨h4, h5, h6⟩ := key u au h1
      rw [h2, h3, add_zero, add_zero]
      simp [h4, h6]
    · have h1 := quot_one hp4 h hd hd' hc
      have h2 := quot_zero hp4 h hd hb (rd (1 / (den : ℚ)))
      have h3 := quot_zero hp4 h hd hdd (rd (1 / (den : ℚ)))
      rw [← hv] at h1
      rw [← hu] at h2
      rw [← hz] at h3
      obtain ⟨h4, h5, h6⟩ := key v av h1
      rw [h2, h3, zero_add, add_zero]
      simp [h4, h6]
    · have h1 := quot_one hp4 h hd hd' hdd
      have h2 := quot_zero hp4 h hd hb (rd (1 / (den : ℚ)))
      have h3 := quot_zero hp4 h hd hc (rd (1 / (den : ℚ)))
      rw [← hz] at h1
      rw [← hu] at h2
      rw [← hv] at h3
      obtain ⟨h4, h5, h6⟩ := key z az h1
      rw [h2, h3, add_zero, r0, zero_add]
      simp [h4, h5]

theorem ri_mul3 (hp0 : 0 < p) (h : Good p rd) {B C : Nat} (hB : B * B ≤ 2 ^ p) (hC : B * B * B = C) (hC' : C ≤ 2 ^ p) {x y z x' y' z' : ℚ}
    (hx : RI B x' x) (hy : RI B y' y) (hz : RI B z' z) : RI C (mulR rd (mulR rd x' y') z') (x * y * z) := by
  rw [← hC]
  exact (hx.mul hp0 h hy hB).mul hp0 h hz (by rw [hC]; exact hC')

theorem ri_mul4 (hp0 : 0 < p) (h : Good p rd) {B C : Nat} (hB : 2 * (B * B) ≤ 2 ^ p) (hB' : 2 * B ≤ 2 ^ p) (hC : B * B * B = C) (hC' : 2 * C ≤ 2 ^ p)
    {x y z x' y' z' : ℚ} (hx : RI B x' x) (hy : RI B y' y) (hz : RI B z' z) :
    RI (2 * C) (mulR rd (mulR rd (mulR rd 2 x') y') z') (2 * x * y * z) := by
  have two : RI 2 2 2 := ⟨rfl, 2, by norm_num, by norm_num⟩
  have e : 2 * C = 2 * B * B * B := by rw [← hC]; ring
  rw [e] at hC' ⊢
  exact ((two.mul hp0 h hx hB').mul hp0 h hy (by rw [mul_assoc]; exact hB)).mul hp0 h hz hC'

theorem gram_den (hp0 : 0 < p) (h : Good p rd) {B C : Nat} (hB : 2 * (B * B) ≤ 2 ^ p) (hB' : 2 * B ≤ 2 ^ p) (hC : B * B * B = C) (hC' : 6 * C ≤ 2 ^ p)
    {g11 g12 g13 g22 g23 g33 G11 G12 G13 G22 G23 G33 : ℚ}
    (d11 : RI B g11 G11) (d12 : RI B g12 G12) (d13 : RI B g13 G13) (d22 : RI B g22 G22) (d23 : RI B g23 G23) (d33 : RI B g33 G33) :
    RI (6 * C) (subR rd (addR rd (addR rd (subR rd (mulR rd (mulR rd g13 g13) g22) (mulR rd (mulR rd (mulR rd 2 g12) g13) g23)) (mulR rd (mulR rd g11 g23) g23)) (mulR rd (mulR rd g12 g12) g33)) (mulR rd (mulR rd g11 g22) g33))
      (((((G13 * G13 * G22) - (2 * G12 * G13 * G23)) + (G11 * G23 * G23)) + (G12 * G12 * G33)) - (G11 * G22 * G33)) := by
  have m3 := fun {x y z x' y' z' : ℚ} (hx : RI B x' x) (hy : RI B y' y) (hz : RI B z' z) => ri_mul3 hp0 h (by omega) hC (by omega) hx hy hz
  have m4 := ri_mul4 hp0 h hB hB' hC (by omega) d12 d13 d23
  exact (((((m3 d13 d13 d22).sub hp0 h m4 (by omega)).add hp0 h (m3 d11 d23 d23) (by omega)).add hp0 h (m3 d12 d12 d33) (by omega)).sub hp0 h (m3 d11 d22 d33) (by omega)).mono (by omega)

theorem gram_u (hp0 : 0 < p) (h : Good p rd) {B C : Nat} (hB : 2 * (B * B) ≤ 2 ^ p) (hB' : 2 * B ≤ 2 ^ p) (hC : B * B * B = C) (hC' : 6 * C ≤ 2 ^ p)
    {g12 g13 g1p g22 g23 g2p g33 g3p G12 G13 G1p G22 G23 G2p G33 G3p : ℚ}
    (d12 : RI B g12 G12) (d13 : RI B g13 G13) (d1p : RI B g1p G1p) (d22 : RI B g22 G22) (d23 : RI B g23 G23) (d2p : RI B g2p G2p) (d33 : RI B g33 G33) (d3p : RI B g3p G3p) :
    RI (6 * C) (addR rd (subR rd (subR rd (addR rd (addR rd (mulR rd (mulR rd (-g1p) g23) g23) (mulR rd (mulR rd g13 g23) g2p)) (mulR rd (mulR rd g1p g22) g33)) (mulR rd (mulR rd g12 g2p) g33)) (mulR rd (mulR rd g13 g22) g3p)) (mulR rd (mulR rd g12 g23) g3p))
      (((((((-G1p) * G23 * G23) + (G13 * G23 * G2p)) + (G1p * G22 * G33)) - (G12 * G2p * G33)) - (G13 * G22 * G3p)) + (G12 * G23 * G3p)) := by
  have m3 := fun {x y z x' y' z' : ℚ} (hx : RI B x' x) (hy : RI B y' y) (hz : RI B z' z) => ri_mul3 hp0 h (by omega) hC (by omega) hx hy hz
  exact ((((((m3 d1p.neg d23 d23).add hp0 h (m3 d13 d23 d2p) (by omega)).add hp0 h (m3 d1p d22 d33) (by omega)).sub hp0 h (m3 d12 d2p d33) (by omega)).sub hp0 h (m3 d13 d22 d3p) (by omega)).add hp0 h (m3 d12 d23 d3p) (by omega)).mono (by omega)

theorem gram_v (hp0 : 0 < p) (h : Good p rd) {B C : Nat} (hB : 2 * (B * B) ≤ 2 ^ p) (hB' : 2 * B ≤ 2 ^ p) (hC : B * B * B = C) (hC' : 6 * C ≤ 2 ^ p)
    {g11 g12 g13 g1p g23 g2p g33 g3p G11 G12 G13 G1p G23 G2p G33 G3p : ℚ}
    (d11 : RI B g11 G11) (d12 : RI B g12 G12) (d13 : RI B g13 G13) (d1p : RI B g1p G1p) (d23 : RI B g23 G23) (d2p : RI B g2p G2p) (d33 : RI B g33 G33) (d3p : RI B g3p G3p) :
    RI (6 * C) (subR rd (addR rd (addR rd (subR rd (subR rd (mulR rd (mulR rd g13 g1p) g23) (mulR rd (mulR rd g13 g13) g2p)) (mulR rd (mulR rd g12 g1p) g33)) (mulR rd (mulR rd g11 g2p) g33)) (mulR rd (mulR rd g12 g13) g3p)) (mulR rd (mulR rd g11 g23) g3p))
      ((((((G13 * G1p * G23) - (G13 * G13 * G2p)) - (G12 * G1p * G33)) + (G11 * G2p * G33)) + (G12 * G13 * G3p)) - (G11 * G23 * G3p)) := by
  have m3 := fun {x y z x' y' z' : ℚ} (hx : RI B x' x) (hy : RI B y' y) (hz : RI B z' z) => ri_mul3 hp0 h (by omega) hC (by omega) hx hy hz
  exact ((((((m3 d13 d1p d23).sub hp0 h (m3 d13 d13 d2p) (by omega)).sub hp0 h (m3 d12 d1p d33) (by omega)).add hp0 h (m3 d11 d2p d33) (by omega)).add hp0 h (m3 d12 d13 d3p) (by omega)).sub hp0 h (m3 d11 d23 d3p) (by omega)).mono (by omega)

theorem gram_z (hp0 : 0 < p) (h : Good p rd) {B C : Nat} (hB : 2 * (B * B) ≤ 2 ^ p) (hB' : 2 * B ≤ 2 ^ p) (hC : B * B * B = C) (hC' : 6 * C ≤ 2 ^ p)
    {g11 g12 g13 g1p g22 g23 g2p g3p G11 G12 G13 G1p G22 G23 G2p G3p : ℚ}
    (d11 : RI B g11 G11) (d12 : RI B g12 G12) (d13 : RI B g13 G13) (d1p : RI B g1p G1p) (d22 : RI B g22 G22) (d23 : RI B g23 G23) (d2p : RI B g2p G2p) (d3p : RI B g3p G3p) :
    RI (6 * C) (addR rd (subR rd (subR rd (addR rd (addR rd (mulR rd (mulR rd (-g13) g1p) g22) (mulR rd (mulR rd g12 g1p) g23)) (mulR rd (mulR rd g12 g13) g2p)) (mulR rd (mulR rd g11 g23) g2p)) (mulR rd (mulR rd g12 g12) g3p)) (mulR rd (mulR rd g11 g22) g3p))
      (((((((-G13) * G1p * G22) + (G12 * G1p * G23)) + (G12 * G13 * G2p)) - (G11 * G23 * G2p)) - (G12 * G12 * G3p)) + (G11 * G22 * G3p)) := by
  have m3 := fun {x y z x' y' z' : ℚ} (hx : RI B x' x) (hy : RI B y' y) (hz : RI B z' z) => ri_mul3 hp0 h (by omega) hC (by omega) hx hy hz
  exact ((((((m3 d13.neg d1p d22).add hp0 h (m3 d12 d1p d23) (by omega)).add hp0 h (m3 d12 d13 d2p) (by omega)).sub hp0 h (m3 d11 d23 d2p) (by omega)).sub hp0 h (m3 d12 d12 d3p) (by omega)).add hp0 h (m3 d11 d22 d3p) (by omega)).mono (by omega)

/-- The decision from the Gram matrix. -/
def gramTest (rd : ℚ → ℚ) (g11 g12 g13 g1p g22 g23 g2p g33 g3p : ℚ) : Bool :=
  decide (-mulR rd (addR rd (subR rd (subR rd (addR rd (addR rd (mulR rd (mulR rd (-g1p) g23) g23) (mulR rd (mulR rd g13 g23) g2p)) (mulR rd (mulR rd g1p g22) g33)) (mulR rd (mulR rd g12 g2p) g33)) (mulR rd (mulR rd g13 g22) g3p)) (mulR rd (mulR rd g12 g23) g3p)) (rd (1 / (subR rd (addR rd (addR rd (subR rd (mulR rd (mulR rd g13 g13) g22) (mulR rd (mulR rd (mulR rd 2 g12) g13) g23)) (mulR rd (mulR rd g11 g23) g23)) (mulR rd (mulR rd g12 g12) g33)) (mulR rd (mulR rd g11 g22) g33)))) ≥ 0) &&
  decide (-mulR rd (subR rd (addR rd (addR rd (subR rd (subR rd (mulR rd (mulR rd g13 g1p) g23) (mulR rd (mulR rd g13 g13) g2p)) (mulR rd (mulR rd g12 g1p) g33)) (mulR rd (mulR rd g11 g2p) g33)) (mulR rd (mulR rd g12 g13) g3p)) (mulR rd (mulR rd g11 g23) g3p)) (rd (1 / (subR rd (addR rd (addR rd (subR rd (mulR rd (mulR rd g13 g13) g22) (mulR rd (mulR rd (mulR rd 2 g12) g13) g23)) (mulR rd (mulR rd g11 g23) g23)) (mulR rd (mulR rd g12 g12) g33)) (mulR rd (mulR rd g11 g22) g33)))) ≥ 0) &&
  decide (-mulR rd (addR rd (subR rd (subR rd (addR rd (addR rd (mulR rd (mulR rd (-g13) g1p) g22) (mulR rd (mulR rd g12 g1p) g23)) (mulR rd (mulR rd g12 g13) g2p)) (mulR rd (mulR rd g11 g23) g2p)) (mulR rd (mulR rd g12 g12) g3p)) (mulR rd (mulR rd g11 g22) g3p)) (rd (1 / (subR rd (addR rd (addR rd (subR rd (mulR rd (mulR rd g13 g13) g22) (mulR rd (mulR rd (mulR rd 2 g12) g13) g23)) (mulR rd (mulR rd g11 g23) g23)) (mulR rd (mulR rd g12 g12) g33)) (mulR rd (mulR rd g11 g22) g33)))) ≥ 0) &&
  decide (addR rd (addR rd (-mulR rd (addR rd (subR rd (subR rd (addR rd (addR rd (mulR rd (mulR rd (-g1p) g23) g23) (mulR rd (mulR rd g13 g23) g2p)) (mulR rd (mulR rd g1p g22) g33)) (mulR rd (mulR rd g12 g2p) g33)) (mulR rd (mulR rd g13 g22) g3p)) (mulR rd (mulR rd g12 g23) g3p)) (rd (1 / (subR rd (addR rd (addR rd (subR rd (mulR rd (mulR rd g13 g13) g22) (mulR rd (mulR rd (mulR rd 2 g12) g13) g23)) (mulR rd (mulR rd g11 g23) g23)) (mulR rd (mulR rd g12 g12) g33)) (mulR rd (mulR rd g11 g22) g33)))))
    (-mulR rd (subR rd (addR rd (addR rd (subR rd (subR rd (mulR rd (mulR rd g13 g1p) g23) (mulR rd (mulR rd g13 g13) g2p)) (mulR rd (mulR rd g12 g1p) g33)) (mulR rd (mulR rd g11 g2p) g33)) (mulR rd (mulR rd g12 g13) g3p)) (mulR rd (mulR rd g11 g23) g3p)) (rd (1 / (subR rd (addR rd (addR rd (subR rd (mulR rd (mulR rd g13 g13) g22) (mulR rd (mulR rd (mulR rd 2 g12) g13) g23)) (mulR rd (mulR rd g11 g23) g23)) (mulR rd (mulR rd g12 g12) g33)) (mulR rd (mulR rd g11 g22) g33))))))
    (-mulR rd (addR rd (subR rd (subR rd (addR rd (addR rd (mulR rd (mulR rd (-g13) g1p) g22) (mulR rd (mulR rd g12 g1p) g23)) (mulR rd (mulR rd g12 g13) g2p)) (mulR rd (mulR rd g11 g23) g2p)) (mulR rd (mulR rd g12 g12) g3p)) (mulR rd (mulR rd g11 g22) g3p)) (rd (1 / (subR rd (addR rd (addR rd (subR rd (mulR rd (mulR rd g13 g13) g22) (mulR rd (mulR rd (mulR rd 2 g12) g13) g23)) (mulR rd (mulR rd g11 g23) g23)) (mulR rd (mulR rd g12 g12) g33)) (mulR rd (mulR rd g11 g22) g33))))) ≤ 1)

theorem gramTest_spec (hp : 10 ≤ p) (h : Good p rd) {B C : Nat} (hB : 2 * (B * B) ≤ 2 ^ p) (hB' : 2 * B ≤ 2 ^ p) (hC : B * B * B = C) (hC' : 48 * C ≤ 2 ^ p)
    {g11 g12 g13 g1p g22 g23 g2p g33 g3p G11 G12 G13 G1p G22 G23 G2p G33 G3p : ℚ}
    (d11 : RI B g11 G11) (d12 : RI B g12 G12) (d13 : RI B g13 G13) (d1p : RI B g1p G1p) (d22 : RI B g22 G22) (d23 : RI B g23 G23) (d2p : RI B g2p G2p) (d33 : RI B g33 G33) (d3p : RI B g3p G3p) {b c d : ℚ}
    (hneg : (((((G13 * G13 * G22) - (2 * G12 * G13 * G23)) + (G11 * G23 * G23)) + (G12 * G12 * G33)) - (G11 * G22 * G33)) < 0)
    (e1 : G1p = b * G11 + c * G12 + d * G13) (e2 : G2p = b * G12 + c * G22 + d * G23) (e3 : G3p = b * G13 + c * G23 + d * G33) :
    (b < 0 ∨ c < 0 ∨ d < 0 ∨ 1 < b + c + d → gramTest rd g11 g12 g13 g1p g22 g23 g2p g33 g3p = false) ∧
      (0 ≤ b → 0 ≤ c → 0 ≤ d → b + c + d < 1 → gramTest rd g11 g12 g13 g1p g22 g23 g2p g33 g3p = true) ∧
      (b = 1 ∧ c = 0 ∧ d = 0 ∨ b = 0 ∧ c = 1 ∧ d = 0 ∨ b = 0 ∧ c = 0 ∧ d = 1 → gramTest rd g11 g12 g13 g1p g22 g23 g2p g33 g3p = true) := by
  have hp0 : 0 < p := by omega
  obtain ⟨eden, den, hden, hdenb⟩ := gram_den hp0 h hB hB' hC (by omega) d11 d12 d13 d22 d23 d33
  obtain ⟨eu, m1, hm1, hm1b⟩ := gram_u hp0 h hB hB' hC (by omega) d12 d13 d1p d22 d23 d2p d33 d3p
  obtain ⟨ev, m2, hm2, hm2b⟩ := gram_v hp0 h hB hB' hC (by omega) d11 d12 d13 d1p d23 d2p d33 d3p
  obtain ⟨ez, m3, hm3, hm3b⟩ := gram_z hp0 h hB hB' hC (by omega) d11 d12 d13 d1p d22 d23 d2p d3p
  have hdneg : den ≤ -1 := by
    rw [hden] at hneg
    have : den < 0 := by exact_mod_cast hneg
    omega
  have hdq : (den : ℚ) ≠ 0 := by
    have : (den : ℚ) ≤ -1 := by exact_mod_cast hdneg
    linarith
  have hP : (48 * C : Int) ≤ 2 ^ p := by exact_mod_cast hC'
  push_cast at hdenb hm1b hm2b hm3b
  have hb : -((m1 : ℚ) / den) = b := by
    rw [← neg_div, div_eq_iff hdq, ← hden, ← hm1, e1, e2, e3]; ring
  have hc : -((m2 : ℚ) / den) = c := by
    rw [← neg_div, div_eq_iff hdq, ← hden, ← hm2, e1, e2, e3]; ring
  have hd : -((m3 : ℚ) / den) = d := by
    rw [← neg_div, div_eq_iff hdq, ← hden, ← hm3, e1, e2, e3]; ring
  have hC0 : (0 : Int) ≤ C := by positivity
  exact decide3 (p := p) (by omega) h hdneg (by rw [abs_of_neg (by omega)] at hdenb; omega) (hm1b.trans (by omega)) (hm2b.trans (by omega))
    (hm3b.trans (by omega)) hb hc hd _ _ _
    (show -mulR rd (addR rd (subR rd (subR rd (addR rd (addR rd (mulR rd (mulR rd (-g1p) g23) g23) (mulR rd (mulR rd g13 g23) g2p)) (mulR rd (mulR rd g1p g22) g33)) (mulR rd (mulR rd g12 g2p) g33)) (mulR rd (mulR rd g13 g22) g3p)) (mulR rd (mulR rd g12 g23) g3p)) (rd (1 / (subR rd (addR rd (addR rd (subR rd (mulR rd (mulR rd g13 g13) g22) (mulR rd (mulR rd (mulR rd 2 g12) g13) g23)) (mulR rd (mulR rd g11 g23) g23)) (mulR rd (mulR rd g12 g12) g33)) (mulR rd (mulR rd g11 g22) g33)))) = _ by rw [eu, eden, hden, hm1])
    (show -mulR rd (subR rd (addR rd (addR rd (subR rd (subR rd (mulR rd (mulR rd g13 g1p) g23) (mulR rd (mulR rd g13 g13) g2p)) (mulR rd (mulR rd g12 g1p) g33)) (mulR rd (mulR rd g11 g2p) g33)) (mulR rd (mulR rd g12 g13) g3p)) (mulR rd (mulR rd g11 g23) g3p)) (rd (1 / (subR rd (addR rd (addR rd (subR rd (mulR rd (mulR rd g13 g13) g22) (mulR rd (mulR rd (mulR rd 2 g12) g13) g23)) (mulR rd (mulR rd g11 g23) g23)) (mulR rd (mulR rd g12 g12) g33)) (mulR rd (mulR rd g11 g22) g33)))) = _ by rw [ev, eden, hden, hm2])
    (show -mulR rd (addR rd (subR rd (subR rd (addR rd (addR rd (mulR rd (mulR rd (-g13) g1p) g22) (mulR rd (mulR rd g12 g1p) g23)) (mulR rd (mulR rd g12 g13) g2p)) (mulR rd (mulR rd g11 g23) g2p)) (mulR rd (mulR rd g12 g12) g3p)) (mulR rd (mulR rd g11 g22) g3p)) (rd (1 / (subR rd (addR rd (addR rd (subR rd (mulR rd (mulR rd g13 g13) g22) (mulR rd (mulR rd (mulR rd 2 g12) g13) g23)) (mulR rd (mulR rd g11 g23) g23)) (mulR rd (mulR rd g12 g12) g33)) (mulR rd (mulR rd g11 g22) g33)))) = _ by rw [ez, eden, hden, hm3])

theorem inSimplex3_gram (q s0 s1 s2 s3 : Vec 3 ℚ) : inSimplex3 rd q s0 s1 s2 s3 = gramTest rd
    (dotR rd (vsubR rd s1 s0) (vsubR rd s1 s0)) (dotR rd (vsubR rd s1 s0) (vsubR rd s2 s0)) (dotR rd (vsubR rd s1 s0) (vsubR rd s3 s0)) (dotR rd (vsubR rd s1 s0) (vsubR rd q s0)) (dotR rd (vsubR rd s2 s0) (vsubR rd s2 s0)) (dotR rd (vsubR rd s2 s0) (vsubR rd s3 s0)) (dotR rd (vsubR rd s2 s0) (vsubR rd q s0)) (dotR rd (vsubR rd s3 s0) (vsubR rd s3 s0)) (dotR rd (vsubR rd s3 s0) (vsubR rd q s0)) := rfl

/-- The test in space. -/
theorem simplex3 (hp : 10 ≤ p) (h : Good p rd) {N : Nat} (hN : 82944 * N ^ 6 ≤ 2 ^ p) {q s0 s1 s2 s3 : Vec 3 ℚ} (hq : IntPt N q) (h0 : IntPt N s0)
    (h1 : IntPt N s1) (h2 : IntPt N s2) (h3 : IntPt N s3) (hnd : Geom.NonDeg3 s0 s1 s2 s3) {b c d : ℚ}
    (hbc : ∀ i, q i = (1 - b - c - d) * s0 i + b * s1 i + c * s2 i + d * s3 i) :
    (b < 0 ∨ c < 0 ∨ d < 0 ∨ 1 < b + c + d → inSimplex3 rd q s0 s1 s2 s3 = false) ∧
      (0 ≤ b → 0 ≤ c → 0 ≤ d → b + c + d < 1 → inSimplex3 rd q s0 s1 s2 s3 = true) ∧
      (b = 1 ∧ c = 0 ∧ d = 0 ∨ b = 0 ∧ c = 1 ∧ d = 0 ∨ b = 0 ∧ c = 0 ∧ d = 1 → inSimplex3 rd q s0 s1 s2 s3 = true) := by
  have hp0 : 0 < p := by omega
  have hN1 : N ≤ N ^ 6 := Nat.le_self_pow (by norm_num) N
  have hN2 : N ^ 2 ≤ N ^ 6 := by
    rcases Nat.eq_zero_or_pos N with h | h
    · rw [h]; norm_num
    · exact Nat.pow_le_pow_right h (by norm_num)
  have hN4 : N ^ 4 ≤ N ^ 6 := by
    rcases Nat.eq_zero_or_pos N with h | h
    · rw [h]; norm_num
    · exact Nat.pow_le_pow_right h (by norm_num)
  have r1 := fun d => vsubR_ri hp0 h (by omega) h1 h0 d
  have r2 := fun d => vsubR_ri hp0 h (by omega) h2 h0 d
  have r3 := fun d => vsubR_ri hp0 h (by omega) h3 h0 d
  have rp := fun d => vsubR_ri hp0 h (by omega) hq h0 d
  have eM : 3 * (N + N) ^ 2 = 12 * N ^ 2 := by ring
  have hM : 3 * (N + N) ^ 2 ≤ 2 ^ p := by omega
  have ho := Geom.orient3_ne hnd
  rw [inSimplex3_gram]
  refine gramTest_spec hp h (B := 3 * (N + N) ^ 2) (C := 1728 * N ^ 6) ?_ (by omega) (by ring) (by omega)
    (dotR3_ri hp0 h hM r1 r1) (dotR3_ri hp0 h hM r1 r2) (dotR3_ri hp0 h hM r1 r3) (dotR3_ri hp0 h hM r1 rp) (dotR3_ri hp0 h hM r2 r2)
    (dotR3_ri hp0 h hM r2 r3) (dotR3_ri hp0 h hM r2 rp) (dotR3_ri hp0 h hM r3 r3) (dotR3_ri hp0 h hM r3 rp) ?_ ?_ ?_ ?_
  · rw [show 2 * (3 * (N + N) ^ 2 * (3 * (N + N) ^ 2)) = 288 * N ^ 4 by ring]; omega
  · have hsq : ∀ x : ℚ, x = -(Geom.orient3 s0 s1 s2 s3) ^ 2 → x < 0 := by
      rintro x rfl
      have : 0 < (Geom.orient3 s0 s1 s2 s3) ^ 2 := by positivity
      linarith
    apply hsq
    simp only [Geom.dot3, Geom.vsub, Geom.orient3]; ring
  · simp only [Geom.dot3, Geom.vsub, hbc]; ring
  · simp only [Geom.dot3, Geom.vsub, hbc]; ring
  · simp only [Geom.dot3, Geom.vsub, hbc]; ring

end FPM
end Verif
