import Verif.Lemmas.Diff4
import Verif.Lemmas.Scale

/-!
# Error of the estimate of an expansion
-/
namespace Verif
namespace FP

theorem eps_mul_zpow (p : Nat) (j : Int) : eps p * 2 ^ j = 2 ^ (j - p) := by
  rw [eps, ← zpow_add₀ (by norm_num)]; congr 1; ring

theorem rnd_err_le {p : Nat} (hp : 0 < p) {z : ℚ} {j : Int} (h : |z| ≤ 2 ^ j) : |rnd p z - z| ≤ eps p * 2 ^ j / 2 := by
  have hpos := two_zpow_pos (j - p)
  rw [eps_mul_zpow]
  rcases eq_or_ne z 0 with rfl | h0
  · rw [rnd_zero, sub_zero, abs_zero]; linarith
  rcases h.lt_or_eq with h | h
  · have h1 : grid p z ≤ j - p := grid_le h0 (by rw [sub_add_cancel]; exact h)
    have h2 := two_zpow_le h1
    have := rnd_err p z
    linarith
  · rw [rnd_rep (rep_of_abs_eq hp h), sub_self, abs_zero]; linarith

/-- The state of the summation: magnitudes `S` and exact sum `s` of the components so far, computed sum `q`. -/
structure EInv (p : Nat) (S s q : ℚ) : Prop where
  rep : Rep p q
  abs : |s| ≤ S
  three : ∀ k : Int, S ≤ 3 / 4 * 2 ^ k → |q - s| ≤ 3 / 4 * eps p * 2 ^ k
  two : ∀ k : Int, S ≤ 2 ^ k / 2 → |q - s| ≤ eps p * 2 ^ k / 2
  fin : |q - s| ≤ 3 * eps p * (1 + 4 * eps p) * |q|

theorem odd_cases {k : Int} {y : ℚ} (h : IsLsb k y) : |y| = 2 ^ k ∨ 3 * 2 ^ k ≤ |y| := by
  obtain ⟨m, hm, rfl⟩ := h
  have hk := two_zpow_pos k
  rw [abs_mul, abs_of_pos hk]
  have : |m| = 1 ∨ 3 ≤ |m| := by
    obtain ⟨r, rfl⟩ := hm
    rcases abs_cases (2 * r + 1) with h | h <;> omega
  rcases this with h | h
  · left
    rw [← Int.cast_abs, h]; simp
  · right
    have : (3 : ℚ) ≤ |(m : ℚ)| := by rw [← Int.cast_abs]; exact_mod_cast h
    nlinarith

theorem EInv.zero {p : Nat} {S s q : ℚ} (h : EInv p S s q) (hp : 11 ≤ p) (hS : S = 0) : q = 0 ∧ s = 0 := by
  have hs : s = 0 := by
    have := h.abs
    rw [hS] at this
    exact abs_eq_zero.mp (le_antisymm this (abs_nonneg s))
  refine ⟨?_, hs⟩
  have h1 := h.fin
  have he := eps_le hp
  have he0 := eps_pos p
  rw [hs, sub_zero] at h1
  by_contra hq
  have := abs_pos.mpr hq
  have h3 : 3 * eps p * (1 + 4 * eps p) < 1 := by nlinarith
  nlinarith

theorem EInv.step {p : Nat} (hp : 11 ≤ p) {S s q y : ℚ} (h : EInv p S s q) (hy : Rep p y) (hl : ∀ k, IsLsb k y → S ≤ 3 / 4 * 2 ^ k) :
    EInv p (S + |y|) (s + y) (rnd p (q + y)) := by
  have hp0 : 0 < p := by omega
  have he := eps_le hp
  have he0 := eps_pos p
  by_cases hy0 : y = 0
  · subst hy0
    rw [abs_zero, add_zero, add_zero, add_zero, rnd_rep h.rep]; exact h
  obtain ⟨k, hk⟩ := hy.lsb hy0
  have hSk := hl k hk
  have hyk := hk.le_abs
  have hK := two_zpow_pos k
  have hE := h.three k hSk
  have hS0 : 0 ≤ S := (abs_nonneg s).trans h.abs
  have hqs : |q| ≤ |q - s| + |s| := by
    have := abs_add_le (q - s) s
    rwa [sub_add_cancel] at this
  have hz : |q + y| ≤ |q| + |y| := abs_add_le q y
  have hsplit : rnd p (q + y) - (s + y) = (rnd p (q + y) - (q + y)) + (q - s) := by ring
  have habs : |s + y| ≤ S + |y| := (abs_add_le s y).trans (by linarith [h.abs])
  have hsum : |rnd p (q + y) - (s + y)| ≤ |rnd p (q + y) - (q + y)| + |q - s| := by rw [hsplit]; exact abs_add_le _ _
  have hsl := h.abs
  have hEk : 3 / 4 * eps p * 2 ^ k ≤ 1 / 1024 * 2 ^ k := by nlinarith
  refine ⟨rep_rnd hp0 _, habs, fun j hj => ?_, fun j hj => ?_, ?_⟩
  · have hJ := two_zpow_pos j
    have hkj : k < j := lt_of_two_zpow (by linarith)
    have hkj2 : 2 * (2 : ℚ) ^ k ≤ 2 ^ j := by rw [← two_zpow_succ]; exact two_zpow_le (by omega)
    have h1 := rnd_err_le hp0 (z := q + y) (j := j) (by linarith)
    rcases (show k + 1 = j ∨ k + 2 ≤ j by omega) with h2 | h2
    · have h3 : (2 : ℚ) ^ j = 2 * 2 ^ k := by rw [← h2, two_zpow_succ]
      have h4 := h.two k (by linarith)
      nlinarith
    · have h3 : 4 * (2 : ℚ) ^ k ≤ 2 ^ j := by
        have := two_zpow_le h2
        rw [show k + 2 = k + 1 + 1 by ring, two_zpow_succ, two_zpow_succ] at this
        linarith
      nlinarith
  · have hJ := two_zpow_pos j
    have hkj : k < j := lt_of_two_zpow (by linarith)
    rcases (show k + 1 = j ∨ k + 2 ≤ j by omega) with h2 | h2
    · have h3 : (2 : ℚ) ^ j = 2 * 2 ^ k := by rw [← h2, two_zpow_succ]
      obtain ⟨e1, e2⟩ := h.zero hp (by linarith)
      rw [e1, e2, zero_add, rnd_rep hy, sub_self, abs_zero]
      positivity
    · have h3 : 4 * (2 : ℚ) ^ k ≤ 2 ^ j := by
        have := two_zpow_le h2
        rw [show k + 2 = k + 1 + 1 by ring, two_zpow_succ, two_zpow_succ] at this
        linarith
      have hJ2 : (2 : ℚ) ^ (j - 1) = 2 ^ j / 2 := by rw [zpow_sub_one₀ (by norm_num)]; ring
      rcases le_total |q + y| (2 ^ (j - 1)) with h4 | h4
      · have h1 := rnd_err_le hp0 h4
        nlinarith
      · have h5 : |rnd p (q + y) - (q + y)| ≤ |q - s| := by
          rw [hJ2] at h4
          rcases le_total 0 (q + y) with h6 | h6
          · have := rnd_nearest hp0 (q + y) (Rep.pow p hp0 (j - 1))
            rw [hJ2] at this
            rw [abs_of_nonneg h6] at h4
            rw [abs_of_nonpos (a := 2 ^ j / 2 - (q + y)) (by linarith)] at this
            rw [abs_of_nonneg h6] at hz
            linarith
          · have := rnd_nearest hp0 (q + y) (Rep.pow p hp0 (j - 1)).neg
            rw [hJ2] at this
            rw [abs_of_nonpos h6] at h4
            rw [abs_of_nonneg (a := -(2 ^ j / 2) - (q + y)) (by linarith)] at this
            rw [abs_of_nonpos h6] at hz
            linarith
        nlinarith
  · have hrel := rnd_rel' hp0 (q + y)
    have hyz : |y| ≤ |q + y| + |q| := by
      have := abs_sub (q + y) q
      rwa [add_sub_cancel_left] at this
    rcases odd_cases hk with h1 | h1
    · rcases le_or_gt S (2 ^ k / 2) with h2 | h2
      · have h3 := h.two k h2
        have h4 : 2 ^ (k - 2) ≤ |rnd p (q + y)| := le_abs_rnd hp0 (Rep.pow p hp0 _) (by
          have : (2 : ℚ) ^ (k - 2) = 2 ^ k / 4 := by rw [zpow_sub₀ (by norm_num)]; norm_num
          rw [this]; nlinarith)
        have : (2 : ℚ) ^ (k - 2) = 2 ^ k / 4 := by rw [zpow_sub₀ (by norm_num)]; norm_num
        rw [this] at h4
        nlinarith [mul_nonneg he0.le (abs_nonneg (rnd p (q + y))), mul_nonneg he0.le (mul_nonneg he0.le (abs_nonneg (rnd p (q + y))))]
      · rcases le_or_gt (2 ^ k / 2) |q + y| with h3 | h3
        · have h4 : 2 ^ (k - 1) ≤ |rnd p (q + y)| := le_abs_rnd hp0 (Rep.pow p hp0 _) (by
            have : (2 : ℚ) ^ (k - 1) = 2 ^ k / 2 := by rw [zpow_sub₀ (by norm_num)]; norm_num
            rw [this]; exact h3)
          have : (2 : ℚ) ^ (k - 1) = 2 ^ k / 2 := by rw [zpow_sub₀ (by norm_num)]; norm_num
          rw [this] at h4
          nlinarith [mul_nonneg he0.le (abs_nonneg (rnd p (q + y))), mul_nonneg he0.le (mul_nonneg he0.le (abs_nonneg (rnd p (q + y))))]
        · have h4 : k - p ≤ grid p q := le_grid (by
            have : (2 : ℚ) ^ (k - p + p - 1) = 2 ^ k / 2 := by rw [sub_add_cancel, zpow_sub₀ (by norm_num)]; norm_num
            rw [this]; linarith)
          have h5 : Mul (k - p) (q + y) := (h.rep.grid.mono h4).add (hk.mul.mono (by omega))
          have h6 : rnd p (q + y) = q + y := rnd_of_mul hp0 h5 (by rw [sub_add_cancel]; linarith)
          rw [h6]
          have h7 : q + y - (s + y) = q - s := by ring
          rw [h7]
          have h8 : (1 / 4 - 3 / 4 * eps p) * 2 ^ k ≤ |q + y| := by nlinarith
          have h9 : 3 / 4 * eps p * 2 ^ k ≤ 3 * eps p * (1 + 4 * eps p) * ((1 / 4 - 3 / 4 * eps p) * 2 ^ k) := by
            have h10 : 3 / 4 * eps p ≤ 3 * eps p * (1 + 4 * eps p) * (1 / 4 - 3 / 4 * eps p) := by
              have h11 : 0 ≤ 1 - 12 * eps p := by linarith
              have : 3 * eps p * (1 + 4 * eps p) * (1 / 4 - 3 / 4 * eps p) - 3 / 4 * eps p = 3 / 4 * eps p * eps p * (1 - 12 * eps p) := by ring
              have h12 : 0 ≤ 3 / 4 * eps p * eps p * (1 - 12 * eps p) := by positivity
              linarith
            nlinarith
          refine hE.trans (h9.trans ?_)
          exact mul_le_mul_of_nonneg_left h8 (by positivity)
    · have h4 : 2 ^ (k + 1) ≤ |rnd p (q + y)| := le_abs_rnd hp0 (Rep.pow p hp0 _) (by rw [two_zpow_succ]; linarith)
      rw [two_zpow_succ] at h4
      nlinarith [mul_nonneg he0.le (abs_nonneg (rnd p (q + y))), mul_nonneg he0.le (mul_nonneg he0.le (abs_nonneg (rnd p (q + y))))]

theorem estimate_foldl {p : Nat} (hp : 11 ≤ p) (l : List ℚ) : ∀ {S s q : ℚ}, EInv p S s q → GoodFrom S l → (∀ y ∈ l, Rep p y) →
    EInv p (S + asum l) (s + l.sum) (l.foldl (fun Q y => rnd p (Q + y)) q) := by
  induction l with
  | nil => intro S s q h _ _; simpa using h
  | cons y l ih =>
    intro S s q h hg hr
    have := ih (h.step hp (hr y (by simp)) hg.1) hg.2 fun z hz => hr z (by simp [hz])
    simpa [List.sum_cons, add_assoc] using this

/-- The estimate of an expansion has a small relative error. -/
theorem Expn.estimate {p : Nat} (hp : 11 ≤ p) {V : ℚ} {l : List ℚ} (h : Expn p V l) :
    |V - FP.estimate p l| ≤ 3 * eps p * (1 + 4 * eps p) * |FP.estimate p l| := by
  cases l with
  | nil => exact absurd rfl h.ne
  | cons x l =>
    have he0 := eps_pos p
    have hg := h.good.2
    rw [zero_add] at hg
    have h1 := estimate_foldl hp l (S := |x|) (s := x) (q := x) ⟨h.rep x (by simp), le_refl _, fun k _ => by rw [sub_self, abs_zero]; positivity,
      fun k _ => by rw [sub_self, abs_zero]; positivity, by rw [sub_self, abs_zero]; positivity⟩ hg fun z hz => h.rep z (by simp [hz])
    have h2 := h1.fin
    rw [abs_sub_comm] at h2
    rw [← h.sum, List.sum_cons]
    exact h2

end FP
end Verif
