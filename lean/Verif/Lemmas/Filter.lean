import Verif.Lemmas.Appr
import Verif.Lemmas.Estimate

/-!
# The filters of the adaptive tests
-/
namespace Verif
namespace FP

/-- First filter: a rounded value `rnd z`, where `z` approximates the determinant `D` through `D'`. -/
theorem filterA {p : Nat} (hp : 11 ≤ p) {D D' z M perm C α β γ : ℚ} (h1 : |D - D'| ≤ α * M) (h2 : |z - D'| ≤ β * M) (hM0 : 0 ≤ M)
    (hM : M ≤ γ * perm) (hperm : 0 ≤ perm) (hα : 0 ≤ α + β) (hc : (α + β) * γ * (1 + eps p) < (1 - eps p) * C)
    (hle : rnd p (C * perm) ≤ |rnd p z|) : SignType.sign (rnd p z) = SignType.sign D := by
  have hp0 : 0 < p := by omega
  have he := eps_pos p
  have he' := eps_le hp
  have h3 : |D - z| ≤ (α + β) * M := by
    have := abs_sub (D - D') (z - D')
    rw [sub_sub_sub_cancel_right] at this
    linarith
  rcases hperm.lt_or_eq with hpos | h0
  · have hr := rnd_rel' hp0 z
    have h4 : |D - rnd p z| ≤ (α + β) * M + eps p * |rnd p z| := by
      have := abs_sub (D - z) (rnd p z - z)
      rw [sub_sub_sub_cancel_right] at this
      linarith
    refine sign_close (lt_of_le_of_lt h4 ?_)
    have h5 : C * perm ≤ (1 + eps p) * |rnd p z| := by
      rcases le_or_gt 0 (C * perm) with h | h
      · exact (le_rnd_mul hp0 h).trans (mul_le_mul_of_nonneg_left hle (by linarith))
      · have : 0 ≤ (1 + eps p) * |rnd p z| := by positivity
        linarith
    have h6 : (α + β) * M ≤ (α + β) * (γ * perm) := mul_le_mul_of_nonneg_left hM hα
    have h7 := mul_lt_mul_of_pos_right hc hpos
    have h8 := mul_le_mul_of_nonneg_left h5 (show 0 ≤ 1 - eps p by linarith)
    have h9 : (1 + eps p) * ((α + β) * (γ * perm)) < (1 + eps p) * ((1 - eps p) * |rnd p z|) := by linarith
    have h10 := lt_of_mul_lt_mul_left h9 (by linarith)
    linarith
  · have : M = 0 := by rw [← h0, mul_zero] at hM; exact le_antisymm hM hM0
    rw [this, mul_zero] at h3
    have : D = z := by
      have := abs_eq_zero.mp (le_antisymm h3 (abs_nonneg _))
      linarith
    rw [this, sign_rnd hp0]

/-- Second filter: an estimate of an expansion with the value `V`. -/
theorem filterB {p : Nat} (hp : 11 ≤ p) {D V est M perm C α γ : ℚ} (h1 : |D - V| ≤ α * M)
    (h2 : |V - est| ≤ 3 * eps p * (1 + 4 * eps p) * |est|) (hM0 : 0 ≤ M)
    (hM : M ≤ γ * perm) (hperm : 0 ≤ perm) (hα : 0 ≤ α) (hc : α * γ * (1 + eps p) < (1 - 4 * eps p) * C)
    (hle : rnd p (C * perm) ≤ |est|) : SignType.sign est = SignType.sign D := by
  have hp0 : 0 < p := by omega
  have he := eps_pos p
  have he' := eps_le hp
  have h20 : 3 * eps p * (1 + 4 * eps p) ≤ 4 * eps p := by nlinarith
  have h2 := h2.trans (mul_le_mul_of_nonneg_right h20 (abs_nonneg _))
  rcases hperm.lt_or_eq with hpos | h0
  · have h4 : |D - est| ≤ α * M + 4 * eps p * |est| := by
      have := abs_add_le (D - V) (V - est)
      rw [sub_add_sub_cancel] at this
      linarith
    refine sign_close (lt_of_le_of_lt h4 ?_)
    have h5 : C * perm ≤ (1 + eps p) * |est| := by
      rcases le_or_gt 0 (C * perm) with h | h
      · exact (le_rnd_mul hp0 h).trans (mul_le_mul_of_nonneg_left hle (by linarith))
      · have : 0 ≤ (1 + eps p) * |est| := by positivity
        linarith
    have h6 : α * M ≤ α * (γ * perm) := mul_le_mul_of_nonneg_left hM hα
    have h7 := mul_lt_mul_of_pos_right hc hpos
    have h8 := mul_le_mul_of_nonneg_left h5 (show 0 ≤ 1 - 4 * eps p by linarith)
    have h9 : (1 + eps p) * (α * (γ * perm)) < (1 + eps p) * ((1 - 4 * eps p) * |est|) := by linarith
    have h10 := lt_of_mul_lt_mul_left h9 (by linarith)
    linarith
  · have : M = 0 := by rw [← h0, mul_zero] at hM; exact le_antisymm hM hM0
    rw [this, mul_zero] at h1
    have : D = V := by
      have := abs_eq_zero.mp (le_antisymm h1 (abs_nonneg _))
      linarith
    rw [this]
    exact sign_close' h2 (by linarith)

/-- Third filter: the estimate of an expansion with the value `V`, and a computed value `corr` of the difference `C1` of first order. -/
theorem filterC {p : Nat} (hp : 11 ≤ p) {D V C1 corr est M perm B C ρ σ γ eb det : ℚ} (h1 : |D - V - C1| ≤ ρ * M) (h2 : |corr - C1| ≤ σ * M)
    (h3 : |V - est| ≤ 3 * eps p * (1 + 4 * eps p) * |est|)
    (hM : M ≤ γ * perm) (hpos : 0 < perm) (hα : 0 ≤ ρ + σ) (hB : 0 ≤ B) (hC : 0 ≤ C) (hest : |est| ≤ (1 + eps p) * (B * perm))
    (hc : (1 + eps p) ^ 2 * ((ρ + σ) * γ) + 15 * eps p ^ 2 * B < (1 - eps p) * C)
    (heb : eb = rnd p (rnd p (C * perm) + rnd p ((3 + 8 * eps p) * eps p * |est|))) (hdet : det = rnd p (est + corr))
    (hle : eb ≤ |det|) : SignType.sign det = SignType.sign D := by
  have hp0 : 0 < p := by omega
  have he := eps_pos p
  have he' := eps_le hp
  have hr := rnd_rel' hp0 (est + corr)
  rw [← hdet] at hr
  have h4 : |D - det| ≤ (ρ + σ) * M + 3 * eps p * (1 + 4 * eps p) * |est| + eps p * |det| := by
    have e : D - det = (D - V - C1) + (V - est) - (corr - C1) - (det - (est + corr)) := by ring
    rw [e]
    have i1 := abs_sub ((D - V - C1) + (V - est) - (corr - C1)) (det - (est + corr))
    have i2 := abs_sub ((D - V - C1) + (V - est)) (corr - C1)
    have i3 := abs_add_le (D - V - C1) (V - est)
    linarith
  refine sign_close (lt_of_le_of_lt h4 ?_)
  have hE := abs_nonneg est
  set E := |est| with hEdef
  have n1 : 0 ≤ C * perm := by positivity
  have n2 : 0 ≤ (3 + 8 * eps p) * eps p * E := by positivity
  have b1 := le_rnd_mul hp0 n1
  have b2 := le_rnd_mul hp0 n2
  have b3 := le_rnd_mul hp0 (add_nonneg (rnd_nonneg hp0 n1) (rnd_nonneg hp0 n2))
  rw [← heb] at b3
  have h5 : C * perm + (3 + 8 * eps p) * eps p * E ≤ (1 + eps p) ^ 2 * |det| := by
    have i1 := mul_le_mul_of_nonneg_left hle (show 0 ≤ (1 + eps p) ^ 2 by positivity)
    have i2 := mul_le_mul_of_nonneg_left b3 (show 0 ≤ 1 + eps p by linarith)
    linarith
  have h6 : (ρ + σ) * M ≤ (ρ + σ) * (γ * perm) := mul_le_mul_of_nonneg_left hM hα
  have h7 := mul_lt_mul_of_pos_right hc hpos
  have h8 := mul_le_mul_of_nonneg_left h5 (show 0 ≤ 1 - eps p by linarith)
  have h9 := mul_le_mul_of_nonneg_left h6 (show 0 ≤ (1 + eps p) ^ 2 by positivity)
  have g : (1 + eps p) ^ 2 * (3 * eps p * (1 + 4 * eps p)) - (1 - eps p) * ((3 + 8 * eps p) * eps p) ≤ 14 * eps p ^ 2 := by
    have : (1 + eps p) ^ 2 * (3 * eps p * (1 + 4 * eps p)) - (1 - eps p) * ((3 + 8 * eps p) * eps p) =
        eps p ^ 2 * (13 + 35 * eps p + 12 * eps p ^ 2) := by ring
    rw [this]
    have : 13 + 35 * eps p + 12 * eps p ^ 2 ≤ 14 := by nlinarith
    nlinarith [sq_nonneg (eps p)]
  have g2 := mul_le_mul_of_nonneg_right g hE
  have g3 := mul_le_mul_of_nonneg_left hest (show 0 ≤ 14 * eps p ^ 2 by positivity)
  have g4 : 14 * eps p ^ 2 * ((1 + eps p) * (B * perm)) ≤ 15 * eps p ^ 2 * B * perm := by
    have i0 : 0 ≤ eps p ^ 2 * (B * perm) := by positivity
    have i1 := mul_le_mul_of_nonneg_right (show 14 * (1 + eps p) ≤ 15 by linarith) i0
    linarith only [i1]
  have h10 : (1 + eps p) ^ 2 * ((ρ + σ) * M + 3 * eps p * (1 + 4 * eps p) * E) < (1 + eps p) ^ 2 * ((1 - eps p) * |det|) := by
    linarith only [g2, g3, g4, h7, h8, h9]
  have h11 := lt_of_mul_lt_mul_left h10 (by positivity)
  linarith

/-- Second filter, where `D` is compared to a multiple of `V`. -/
theorem filterB' {p : Nat} (hp : 11 ≤ p) {D V est M perm C α γ lam : ℚ} (hlam : 1 ≤ lam) (h1 : |D - lam * V| ≤ α * M)
    (h2 : |V - est| ≤ 3 * eps p * (1 + 4 * eps p) * |est|) (hM0 : 0 ≤ M)
    (hM : M ≤ γ * perm) (hperm : 0 ≤ perm) (hα : 0 ≤ α) (hc : α * γ * (1 + eps p) < (1 - 3 * eps p * (1 + 4 * eps p)) * C)
    (hle : rnd p (C * perm) ≤ |est|) : SignType.sign est = SignType.sign D := by
  have hp0 : 0 < p := by omega
  have he := eps_pos p
  have he' := eps_le hp
  have hδ : 3 * eps p * (1 + 4 * eps p) < 1 := by nlinarith
  have hlam0 : 0 < lam := by linarith
  rw [sign_close' h2 hδ]
  have e0 : SignType.sign V = SignType.sign (lam * V) := by rw [sign_mul, sign_pos hlam0, one_mul]
  rw [e0]
  rcases hperm.lt_or_eq with hpos | h0
  · refine sign_close (lt_of_le_of_lt h1 ?_)
    have h3 : |est| - |V - est| ≤ |V| := by
      have := abs_sub_abs_le_abs_sub est V
      rw [abs_sub_comm] at this
      linarith
    have h4 : |V| ≤ |lam * V| := by
      rw [abs_mul, abs_of_pos hlam0]
      exact le_mul_of_one_le_left (abs_nonneg V) hlam
    have h5 : C * perm ≤ (1 + eps p) * |est| := by
      rcases le_or_gt 0 (C * perm) with h | h
      · exact (le_rnd_mul hp0 h).trans (mul_le_mul_of_nonneg_left hle (by linarith))
      · have : 0 ≤ (1 + eps p) * |est| := by positivity
        linarith
    have h6 : α * M ≤ α * (γ * perm) := mul_le_mul_of_nonneg_left hM hα
    have h7 := mul_lt_mul_of_pos_right hc hpos
    have h8 := mul_le_mul_of_nonneg_left h5 (show 0 ≤ 1 - 3 * eps p * (1 + 4 * eps p) by linarith)
    have h9 : (1 + eps p) * (α * (γ * perm)) < (1 + eps p) * ((1 - 3 * eps p * (1 + 4 * eps p)) * |est|) := by linarith
    have h10 := lt_of_mul_lt_mul_left h9 (by linarith)
    linarith
  · have : M = 0 := by rw [← h0, mul_zero] at hM; exact le_antisymm hM hM0
    rw [this, mul_zero] at h1
    have := abs_eq_zero.mp (le_antisymm h1 (abs_nonneg _))
    congr 1
    linarith

/-- `X` is `x`, multiplied by a number between `l` and `u`. -/
def Ratio (l u X x : ℚ) : Prop := ∃ r, l ≤ r ∧ r ≤ u ∧ X = x * r

theorem Ratio.of_tail {e x t : ℚ} (he : 0 ≤ e) (h : |t| ≤ e * |x|) : Ratio (1 - e) (1 + e) (x + t) x := by
  by_cases h0 : x = 0
  · rw [h0, abs_zero, mul_zero] at h
    have := abs_eq_zero.mp (le_antisymm h (abs_nonneg t))
    exact ⟨1, by linarith, by linarith, by rw [h0, this]; ring⟩
  · have h1 : |t / x| ≤ e := by
      rw [abs_div, div_le_iff₀ (abs_pos.mpr h0)]; exact h
    rw [abs_le] at h1
    exact ⟨1 + t / x, by linarith [h1.1], by linarith [h1.2], by field_simp⟩

theorem Ratio.mul {l u X x l' u' Y y : ℚ} (h : Ratio l u X x) (h' : Ratio l' u' Y y) (hl : 0 ≤ l) (hl' : 0 ≤ l') :
    Ratio (l * l') (u * u') (X * Y) (x * y) := by
  obtain ⟨r, h1, h2, rfl⟩ := h
  obtain ⟨r', h3, h4, rfl⟩ := h'
  exact ⟨r * r', mul_le_mul h1 h3 hl' (hl.trans h1), mul_le_mul h2 h4 (hl'.trans h3) (hl.trans (h1.trans h2)), by ring⟩

theorem Ratio.err {l u X x lam κ : ℚ} (h : Ratio l u X x) (h1 : u ≤ lam + κ) (h2 : lam - κ ≤ l) : |X - lam * x| ≤ κ * |x| := by
  obtain ⟨r, h3, h4, rfl⟩ := h
  have : x * r - lam * x = (r - lam) * x := by ring
  rw [this, abs_mul]
  refine mul_le_mul_of_nonneg_right (abs_le.mpr ⟨by linarith, by linarith⟩) (abs_nonneg x)

end FP
end Verif
